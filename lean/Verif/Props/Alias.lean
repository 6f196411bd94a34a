import Verif.Lemmas.Alias
import Verif.Model.Io
import Verif.Props.BufStay
/-! Property C91: two pointers to the same buffer. The specification is Spec/Alias.lean. -/
namespace CStr

/-- C91. As long as every result fits into the capacity, two variables that hold the same pointer to a buffer can be used in turn, in any order: all calls complete, both variables still hold
the pointer, and the buffer has the content that all the calls together give it. The allocator is not called. -/
theorem C91_interchangeable {cfg : Cfg} (hcfg : cfg.Ok) {p : Addr} {s : St} {b : Buf} {ops : List BufOp} {data : List Byte} (h : AllFit cfg p s b ops data)
    (hs : s.Sane) (hb : BufAt s p b) (which : List Bool) (hw : which.length = ops.length) :
    ∃ s', runCopies cfg s ⟨p, p⟩ (which.zip ops) = .ok (⟨p, p⟩, s') ∧ BufAt s' p ⟨data, b.cap, b.al⟩ ∧ s'.Sane ∧ s'.live = s.live ∧ s'.log = s.log ∧
      ∀ a, ¬ InRange p (storage b.cap) a → s'.mem a = s.mem a := by
  induction h generalizing which with
  | @nil s b =>
    simp only [List.zip_nil_right]
    exact ⟨s, rfl, hb, hs, rfl, rfl, fun _ _ => rfl⟩
  | @cons s b op e ops data hm hok hroom hself hrest ih =>
    obtain ⟨w, which, rfl⟩ : ∃ w l, which = w :: l := by
      cases which with
      | nil => cases hw
      | cons w l => exact ⟨w, l, rfl⟩
    have hsane : ∀ {v bp s'}, op.run cfg s (some p) = .ok (v, bp, s') → s'.Sane := by
      intro v bp s' h
      rcases run_does_at hcfg hs hb hm hok with ⟨_, _, he⟩ | ⟨p', s1, h1, _, h3, _⟩
      · rw [h] at he; cases he
      · rw [h] at h1
        injection h1 with h1
        injection h1 with _ h1
        injection h1 with _ h1
        rw [h1]
        exact h3.sane
    rcases C81_stays hcfg hs hb hm hok hroom with ⟨h, _⟩ | ⟨v, s1, h1, h2, -, h4, h5, h6⟩
    · rw [hself] at h; cases h
    · obtain ⟨s', r1, r2, r3, r4, r5, r6⟩ := ih s1 h2 h5 (hsane h1) h2 which (by simpa using hw)
      refine ⟨s', ?_, r2, r3, r4.trans h4, r5.trans (h6 hself).1, fun a ha => (r6 a ha).trans (h5 a ha)⟩
      have hg : (Copies.mk p p).get w = p := by cases w <;> rfl
      have hset : (Copies.mk p p).set w p = ⟨p, p⟩ := by cases w <;> rfl
      simp only [List.zip_cons_cons, runCopies, hg, h1, Res.bind_ok, Option.getD_some, hset]
      exact r1

/-- C91. Once an operation has moved the buffer to a block that does not take in the old header, a copy of the pointer made before is dangling. -/
theorem C91_moved {cfg : Cfg} (hcfg : cfg.Ok) {s : St} (hs : s.Sane) {p : Addr} {b : Buf} (hb : BufAt s p b)
    {op : BufOp} {e : Edit} (hm : Means s p b op e) (hok : e.Ok cfg b) {v : View} {p' : Addr} {s' : St}
    (hrun : op.run cfg s (some p) = .ok (v, some p', s')) (haway : p' + storage (e.cap cfg b) ≤ p ∨ p + 24 ≤ p') : Dangling s'.mem p := by
  rcases run_does_at hcfg hs hb hm hok with ⟨_, _, he⟩ | ⟨q, s1, h1, _, h3, _⟩
  · rw [hrun] at he; cases he
  · rw [hrun] at h1
    obtain ⟨rfl, rfl⟩ : p' = q ∧ s' = s1 := by
      injection h1 with h1
      injection h1 with _ h1
      injection h1 with h1 h2
      injection h1 with h1
      exact ⟨h1, h2⟩
    have htop := hb.top
    have hst : storage b.cap = 24 + b.cap + 1 := by simp only [storage]
    refine ⟨hb.pos, by omega, fun a ha => h3.only.left a ⟨ha.1, by have := ha.2; omega⟩ ?_⟩
    intro hin
    obtain ⟨i1, i2⟩ := hin
    obtain ⟨j1, j2⟩ := ha
    simp only [Edit.apply] at i2
    omega

/-- C91. After the buffer has been destroyed through one pointer, every copy of the pointer to a dynamic buffer is dangling. -/
theorem C91_destroyed {s : St} (hs : s.Sane) {p : Addr} {b : Buf} (hb : BufAt s p b) (hd : b.Dynamic) :
    ∃ s', strbuf_destroy s (some p) = .ok (some 0, s') ∧ Dangling s'.mem p := by
  obtain ⟨s', h1, h2, -⟩ := (C43_destroy hs hb).1 hd
  have htop := hb.top
  have hst : storage b.cap = 24 + b.cap + 1 := by simp only [storage]
  exact ⟨s', h1, hb.pos, by omega, fun a ha => h2.gone a ⟨ha.1, by have := ha.2; omega⟩⟩

/-- C91. A copy of the pointer to a fixed buffer stays usable after the buffer has been destroyed: nothing was released. -/
theorem C91_destroyed_fixed {s : St} (hs : s.Sane) {p : Addr} {b : Buf} (hb : BufAt s p b) (hd : ¬ b.Dynamic) :
    ∃ s', strbuf_destroy s (some p) = .ok (some 0, s') ∧ BufAt s' p b := ⟨s, (C43_destroy hs hb).2 hd, hb⟩

/-- C91. Every use of a dangling pointer is undefined: each function that modifies a buffer (whatever its arguments; C strings among them must be readable, since they are read first), viewing,
destroying (a second time), turning it into a C string, reading a file into it and writing it to a file. -/
theorem C91_dangling (cfg : Cfg) {s : St} {p : Addr} (h : Dangling s.mem p) :
    (∀ op : BufOp, op.CstrsReadable s.mem → ∃ w, op.run cfg s (some p) = .ub w) ∧
    (∃ w, strbuf_view s.mem (some p) = .ub w) ∧ (∃ w, strbuf_destroy s (some p) = .ub w) ∧ (∃ w, strbuf_to_cstr cfg s (some p) = .ub w) ∧
    (∀ ans inp, ∃ w, strbuf_append_read cfg s (some p) ans inp = .ub w) ∧ ∀ ans out, ∃ w, strbuf_write cfg s (some p) ans out = .ub w := by
  have hd := h.deref
  have hp := h.pos
  refine ⟨fun op hc => dangling_run h hc, ?_, ?_, ?_, fun ans inp => ?_, fun ans out => ?_⟩
  · simp only [strbuf_view, hd]
    exact h.view
  · simp only [strbuf_destroy]
    rw [if_pos (by omega)]
    exact IsUb.bind h.dynamic _
  · simp only [strbuf_to_cstr, hd]
    exact IsUb.bind h.getSize _
  · simp only [strbuf_append_read, hd]
    exact IsUb.bind h.getSize _
  · simp only [strbuf_write, hd]
    exact IsUb.bind h.getSize _

/-- C91. The README's example in general: of two variables that hold the same pointer, one is used for an operation that moves the buffer; whatever is then done through the other is undefined,
while the first goes on working. -/
theorem C91_two_pointers {cfg : Cfg} (hcfg : cfg.Ok) {s : St} (hs : s.Sane) {p : Addr} {b : Buf} (hb : BufAt s p b)
    {op : BufOp} {e : Edit} (hm : Means s p b op e) (hok : e.Ok cfg b) {v : View} {p' : Addr} {s' : St}
    (hrun : op.run cfg s (some p) = .ok (v, some p', s')) (haway : p' + storage (e.cap cfg b) ≤ p ∨ p + 24 ≤ p') (first : Bool) :
    (∀ next : BufOp, next.CstrsReadable s'.mem → ∃ w, runCopies cfg s ⟨p, p⟩ [(first, op), (!first, next)] = .ub w) ∧
    (∀ next : BufOp, runCopies cfg s ⟨p, p⟩ [(first, op), (first, next)] =
      (next.run cfg s' (some p')).bind fun r => .ok ((Copies.mk p p).set first (r.2.1.getD 0), r.2.2)) ∧
    BufAt s' p' (e.apply cfg b) := by
  have hdang := C91_moved hcfg hs hb hm hok hrun haway
  have h1 : (Copies.mk p p).get first = p := by cases first <;> rfl
  refine ⟨fun next hc => ?_, fun next => ?_, ?_⟩
  · have h2 : ((Copies.mk p p).set first p').get (!first) = p := by cases first <;> rfl
    simp only [runCopies, h1, hrun, Res.bind_ok, Option.getD_some, h2]
    exact IsUb.bind (dangling_run hdang hc) _
  · have h2 : ((Copies.mk p p).set first p').get first = p' := by cases first <;> rfl
    have h3 : ∀ q, ((Copies.mk p p).set first p').set first q = (Copies.mk p p).set first q := by intro q; cases first <;> rfl
    simp only [runCopies, h1, hrun, Res.bind_ok, Option.getD_some, h2, h3]
    rfl
  · rcases run_does_at hcfg hs hb hm hok with ⟨_, _, he⟩ | ⟨q, s1, h1, h2, h3, _⟩
    · rw [hrun] at he; cases he
    · rw [hrun] at h1
      obtain ⟨rfl, rfl⟩ : p' = q ∧ s' = s1 := by
        injection h1 with h1
        injection h1 with _ h1
        injection h1 with h1 h2
        injection h1 with h1
        exact ⟨h1, h2⟩
      have := h3.buf
      rwa [← h2] at this

/-! ### Cases that meet the hypotheses -/

-- "hello" in a buffer of capacity 8: one character through each pointer
example : ∃ s', runCopies isoCfg (exSt exB []) ⟨exP, exP⟩ [(false, .appendChar 33), (true, .appendPrnf [49, 50])] = .ok (⟨exP, exP⟩, s') ∧
    BufAt s' exP ⟨[104, 101, 108, 108, 111, 33, 49, 50], 8, ⟨0, 1⟩⟩ := by
  obtain ⟨s', h1, h2, -⟩ := C91_interchangeable isoCfg_ok (p := exP) (s := exSt exB []) (b := exB) (ops := [.appendChar 33, .appendPrnf [49, 50]])
    (data := [104, 101, 108, 108, 111, 33, 49, 50])
    (.cons .appendChar ⟨.inr (.inl (by decide)), trivial⟩ ⟨by decide, trivial⟩ rfl fun s' _ _ =>
      .cons .appendPrnf ⟨.inr (.inl (by decide)), by decide, fun _ => by decide⟩ ⟨by decide, trivial⟩ rfl fun s' _ _ => .nil)
    (exSt_sane exB_valid []) (exSt_buf exB_valid _) [false, true] rfl
  exact ⟨s', h1, h2⟩

-- four more characters do not fit: the other pointer is dangling
example : ∃ v p' s', (BufOp.appendPrnf [49, 50, 51, 52]).run isoCfg (exSt exB []) (some exP) = .ok (v, some p', s') ∧ Dangling s'.mem exP ∧
    (∃ w, runCopies isoCfg (exSt exB []) ⟨exP, exP⟩ [(false, .appendPrnf [49, 50, 51, 52]), (true, .appendChar 33)] = .ub w) ∧
    BufAt s' p' ⟨[104, 101, 108, 108, 111, 49, 50, 51, 52], 16, ⟨0, 1⟩⟩ := by
  have hok : (match (BufOp.appendPrnf [49, 50, 51, 52]).run isoCfg (exSt exB []) (some exP) with
    | .ok (_, some p', _) => decide (exP + 24 ≤ p') | _ => false) = true := by decide +kernel
  have he : (Edit.appendPrnf [49, 50, 51, 52]).Ok isoCfg exB := ⟨.inr (.inr (.inl (by decide))), by decide, fun _ => by decide⟩
  split at hok
  · next v p' s' h =>
    have haway := of_decide_eq_true hok
    obtain ⟨h1, -, h3⟩ := C91_two_pointers isoCfg_ok (exSt_sane exB_valid []) (exSt_buf exB_valid _) (.appendPrnf (t := [49, 50, 51, 52])) he h (.inr haway) false
    exact ⟨v, p', s', h, C91_moved isoCfg_ok (exSt_sane exB_valid []) (exSt_buf exB_valid _) .appendPrnf he h (.inr haway), h1 (.appendChar 33) trivial, h3⟩
  · cases hok

-- destroyed through one pointer, destroyed again through the other
example : ∃ s', strbuf_destroy (exSt exB []) (some exP) = .ok (some 0, s') ∧ ∃ w, strbuf_destroy s' (some exP) = .ub w := by
  obtain ⟨s', h1, h2⟩ := C91_destroyed (exSt_sane exB_valid []) (exSt_buf exB_valid _) (by decide)
  exact ⟨s', h1, (C91_dangling isoCfg h2).2.2.1⟩

example : ∃ s', strbuf_destroy (exSt exF []) (some exP) = .ok (some 0, s') ∧ BufAt s' exP exF :=
  C91_destroyed_fixed (exSt_sane exF_valid []) (exSt_buf exF_valid _) (by decide)

end CStr
