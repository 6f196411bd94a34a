import Verif.Lemmas.Io
import Verif.Props.BufInsert
/-! Property C55: reading from and writing to file descriptors. -/
namespace CStr

/-- C55. `strbuf_append_read` appends exactly the bytes the operating system delivers, in order, and reports how many. It takes at most the free capacity, never
changes the capacity and never moves the buffer. -/
theorem C55_append_read {cfg : Cfg} {s : St} (hs : s.Sane) {p : Addr} {b : Buf} (hb : BufAt s p b) (j : Nat) (inp : List Byte) :
    ∃ l rest s', inp = l ++ rest ∧ l.length = min j (min (b.cap - b.data.length) inp.length) ∧
      strbuf_append_read cfg s (some p) (some j) inp = .ok (l.length, s', rest) ∧ Result s p b (b.data ++ l) b.cap p s' := by
  obtain ⟨s', e, h⟩ := read_yields (cfg := cfg) hs hb (l := inp.take (min j (b.cap - b.data.length))) (inp := inp) (j := j) rfl
  refine ⟨_, inp.drop (min j (b.cap - b.data.length)), s', (List.take_append_drop _ _).symm, ?_, ?_, h⟩
  · rw [List.length_take]; omega
  · rw [e, List.length_take]
    congr 3
    by_cases h : min j (b.cap - b.data.length) ≤ inp.length
    · rw [Nat.min_eq_left h]
    · rw [Nat.min_eq_right (by omega), List.drop_length, List.drop_of_length_le (by omega)]

/-- C55. When `read` fails, `strbuf_append_read` reports it and changes nothing. -/
theorem C55_append_read_error {cfg : Cfg} {s : St} {p : Addr} {b : Buf} (hb : BufAt s p b) (inp : List Byte) :
    strbuf_append_read cfg s (some p) none inp = .ok (-1, s, inp) := by
  have hlen := hb.len
  have hcapm := hb.cap
  rw [strbuf_append_read, deref_some hb.pos]
  simp only
  rw [hb.getSize, Res.bind_ok, hb.getCap, Res.bind_ok, addInt_nat cfg (n := b.cap - b.data.length) (by omega) (by omega), Res.bind_ok]
  rfl

/-- C55. `strbuf_write` writes some prefix of the content to the descriptor, reports its length, and removes exactly that prefix from the buffer. Capacity and place do
not change. -/
theorem C55_write {cfg : Cfg} (hcfg : cfg.Ok) {s : St} (hs : s.Sane) {p : Addr} {b : Buf} (hb : BufAt s p b) (j : Nat) (out : List Byte) :
    ∃ l rest s', b.data = l ++ rest ∧ l.length = min j b.data.length ∧
      strbuf_write cfg s (some p) (some j) out = .ok (l.length, some p, s', out ++ l) ∧ Result s p b rest b.cap p s' := by
  have hv := hb.viewOf
  have hos := os_write_eq hv.holds j out
  have hlt : (b.data.take j).length = min j b.data.length := List.length_take
  have hsz : ((⟨p + 24, (b.data.length : Int)⟩ : View).data) = cstrOf p := rfl
  rw [hsz] at hos
  have hlen := hb.len
  by_cases h0 : min j b.data.length = 0
  · refine ⟨[], b.data, s, rfl, h0.symm, ?_, (ReszOk.refl hs hb).toResult⟩
    have ht : b.data.take j = [] := List.eq_nil_of_length_eq_zero (by rw [hlt, h0])
    rw [strbuf_write, deref_some hb.pos]
    simp only
    rw [hb.getSize, Res.bind_ok, hos, Res.bind_ok]
    simp only
    rw [h0, if_neg (by decide), ht]
    rfl
  · have hv' : ViewOf s.mem ⟨p + 24, b.data.length⟩ (b.data.take j ++ b.data.drop j) := by rw [List.take_append_drop]; exact hv
    obtain ⟨w, ew, hw, hpart⟩ := sub_drop hv'
    have hy : Yields s p b (strbuf_assign cfg s (some p) w) (b.data.drop j) b.cap := by
      by_cases hr : b.data.drop j = []
      · have hm := hv.max
        have hj : b.data.length ≤ j := List.drop_eq_nil_iff.1 hr
        have hne : b.data ≠ [] := by intro h; rw [h] at h0; simp at h0
        have hinv := C05_sub_out_of_range hv hne b.data.length INT_MAX (by simp only [INT_MIN]; omega) (by decide) hm (by decide)
          (by right; left; simp only [fromEnd]; rw [if_neg (by omega)]; omega)
        rw [hlt, Nat.min_eq_right hj, hinv] at ew
        rw [hr, ← Res.ok.inj ew]
        exact C36_assign_invalid hs hb rfl
      · have hp := hpart hr
        have hsrc := hb.partSource (min j b.data.length) (b.data.drop j).length (by rw [List.length_drop]; omega)
        have hd : (b.data.drop (min j b.data.length)).take (b.data.drop j).length = b.data.drop j := by
          by_cases hj : j ≤ b.data.length
          · rw [Nat.min_eq_left hj, List.take_length]
          · exact absurd (List.drop_eq_nil_iff.2 (by omega)) hr
        rw [hd] at hsrc
        rw [hp]
        simp only [View.part, hlt]
        have := C36_assign hcfg hs hb hsrc (by have := hb.pos; simp only; omega) (.inl (by rw [List.length_drop]; omega))
          (.inr (.inl (by rw [List.length_drop]; omega)))
        rwa [capFor_same (by rw [List.length_drop]; omega)] at this
    rcases hy with ⟨⟨h, -⟩, -⟩ | ⟨p', s', e, hr⟩
    · exact absurd rfl h
    · obtain ⟨rfl, -⟩ := hr.same rfl
      refine ⟨b.data.take j, b.data.drop j, s', (List.take_append_drop _ _).symm, hlt, ?_, hr⟩
      rw [strbuf_write, deref_some hb.pos]
      simp only
      rw [hb.getSize, Res.bind_ok, hos, Res.bind_ok]
      simp only
      rw [if_pos (by omega), strbuf_view, deref_some hb.pos]
      simp only
      rw [hb.view, Res.bind_ok, ← hlt, ew, Res.bind_ok, e, Res.bind_ok]

/-- C55. When `write` fails, `strbuf_write` reports it and nothing is lost. -/
theorem C55_write_error {cfg : Cfg} {s : St} {p : Addr} {b : Buf} (hb : BufAt s p b) (out : List Byte) :
    strbuf_write cfg s (some p) none out = .ok (-1, some p, s, out) := by
  rw [strbuf_write, deref_some hb.pos]
  simp only
  rw [hb.getSize, Res.bind_ok]
  rfl

/-- C55. On NULL handles the functions do nothing and return 0. -/
theorem C55_null (cfg : Cfg) (s : St) (ans : Option Nat) (inp out : List Byte) (m : Mem) :
    strbuf_append_read cfg s none ans inp = .ok (0, s, inp) ∧ strbuf_append_read cfg s (some 0) ans inp = .ok (0, s, inp) ∧
    strbuf_write cfg s none ans out = .ok (0, none, s, out) ∧ strbuf_write cfg s (some 0) ans out = .ok (0, some 0, s, out) ∧
    strview_write m none ans out = .ok (0, none, out) ∧ strview_write m (some .invalid) ans out = .ok (0, some .invalid, out) :=
  ⟨rfl, rfl, rfl, rfl, rfl, rfl⟩

-- `hello`: the operating system takes 2 bytes
example : ∃ s', strbuf_write isoCfg (exSt exB []) (some exP) (some 2) [62] = .ok (2, some exP, s', [62, 104, 101]) ∧ Result (exSt exB []) exP exB [108, 108, 111] 8 exP s' := by
  obtain ⟨l, rest, s', h1, h2, e, h3⟩ := C55_write isoCfg_ok (exSt_sane exB_valid []) (exSt_buf exB_valid []) 2 [62]
  match l, h1, h2 with
  | [x, y], h1, _ =>
    simp only [exB, List.cons_append, List.nil_append, List.cons.injEq] at h1
    obtain ⟨rfl, rfl, rfl⟩ := h1
    exact ⟨s', e, h3⟩

-- reading into the 3 free bytes of `hello` when 4 are offered
example : ∃ s', strbuf_append_read isoCfg (exSt exB []) (some exP) (some 4) [1, 2, 3, 4, 5] = .ok (3, s', [4, 5]) ∧
    Result (exSt exB []) exP exB [104, 101, 108, 108, 111, 1, 2, 3] 8 exP s' := by
  obtain ⟨l, rest, s', h1, h2, e, h3⟩ := C55_append_read (cfg := isoCfg) (exSt_sane exB_valid []) (exSt_buf exB_valid []) 4 [1, 2, 3, 4, 5]
  match l, h1, h2 with
  | [x, y, z], h1, _ =>
    simp only [List.cons_append, List.nil_append, List.cons.injEq] at h1
    obtain ⟨rfl, rfl, rfl, rfl⟩ := h1
    exact ⟨s', e, h3⟩

/-- C55. Whatever sequence of reads and writes a caller makes, with whatever transfers and errors of the operating system: the output, the content of the
buffer and the input still to be read, put together, are always the same bytes. So no byte is lost, duplicated or reordered. The buffer stays where it is, with its capacity,
and nothing outside it changes. -/
theorem C55_conservation {cfg : Cfg} (hcfg : cfg.Ok) (calls : List IoCall) {s : St} (hs : s.Sane) {p : Addr} {b : Buf} (hb : BufAt s p b) (inp out : List Byte) :
    ∃ s' data inp' out', runIo cfg calls (some p) s inp out = .ok (some p, s', inp', out') ∧ Result s p b data b.cap p s' ∧
      out' ++ data ++ inp' = out ++ b.data ++ inp ∧ ∃ more, out' = out ++ more := by
  induction calls generalizing s b inp out with
  | nil => exact ⟨s, b.data, inp, out, rfl, (ReszOk.refl hs hb).toResult, rfl, [], (List.append_nil _).symm⟩
  | cons c r ih =>
    have step : ∀ {s1 data1 inp1 out1}, Result s p b data1 b.cap p s1 → out1 ++ data1 ++ inp1 = out ++ b.data ++ inp → (∃ more, out1 = out ++ more) →
        ∃ s' data inp' out', runIo cfg r (some p) s1 inp1 out1 = .ok (some p, s', inp', out') ∧ Result s p b data b.cap p s' ∧
          out' ++ data ++ inp' = out ++ b.data ++ inp ∧ ∃ more, out' = out ++ more := by
      intro s1 data1 inp1 out1 hr he ⟨more, hmore⟩
      obtain ⟨s', data, inp', out', e, h, he', more', hmore'⟩ := ih hr.sane hr.buf inp1 out1
      obtain ⟨-, a1, a2, a3⟩ := hr.same rfl
      obtain ⟨-, b1, b2, b3⟩ := h.same rfl
      refine ⟨s', data, inp', out', e, ⟨h.buf, h.sane, hr.only.trans h.only, fun _ => ⟨rfl, b1.trans a1, b2.trans a2, b3.trans a3⟩, fun hc => absurd rfl hc⟩,
        he'.trans he, more ++ more', ?_⟩
      rw [hmore', hmore, List.append_assoc]
    cases c with
    | read ans =>
      cases ans with
      | none =>
        rw [runIo, C55_append_read_error hb, Res.bind_ok]
        exact step (ReszOk.refl hs hb).toResult rfl ⟨[], (List.append_nil _).symm⟩
      | some j =>
        obtain ⟨l, rest, s', h1, -, e, h2⟩ := C55_append_read (cfg := cfg) hs hb j inp
        rw [runIo, e, Res.bind_ok]
        exact step h2 (by rw [h1]; simp only [List.append_assoc]) ⟨[], (List.append_nil _).symm⟩
    | write ans =>
      cases ans with
      | none =>
        rw [runIo, C55_write_error hb, Res.bind_ok]
        exact step (ReszOk.refl hs hb).toResult rfl ⟨[], (List.append_nil _).symm⟩
      | some j =>
        obtain ⟨l, rest, s', h1, -, e, h2⟩ := C55_write hcfg hs hb j out
        rw [runIo, e, Res.bind_ok]
        exact step h2 (by rw [h1]; simp only [List.append_assoc]) ⟨l, rfl⟩

/-- C55. Calling `strbuf_write` repeatedly delivers the whole content, in order, once enough calls have transferred something (each such call transfers at least one byte),
whatever the sizes of the transfers and however many calls fail in between; after that nothing more is written. -/
theorem C55_delivery {cfg : Cfg} (hcfg : cfg.Ok) (sched : List (Option Nat)) {s : St} (hs : s.Sane) {p : Addr} {b : Buf} (hb : BufAt s p b) (inp out : List Byte)
    (hp : b.data.length ≤ progress sched) :
    ∃ s', runIo cfg (sched.map .write) (some p) s inp out = .ok (some p, s', inp, out ++ b.data) ∧ Result s p b [] b.cap p s' := by
  induction sched generalizing s b out with
  | nil =>
    have h0 : b.data = [] := List.eq_nil_of_length_eq_zero (by simpa [progress] using hp)
    refine ⟨s, by rw [h0, List.append_nil]; rfl, ?_⟩
    have := (ReszOk.refl hs hb).toResult
    rwa [h0] at this
  | cons a r ih =>
    have step : ∀ {s1 data1 out1}, Result s p b data1 b.cap p s1 → data1.length ≤ progress r → out1 ++ data1 = out ++ b.data →
        ∃ s', runIo cfg (r.map .write) (some p) s1 inp out1 = .ok (some p, s', inp, out ++ b.data) ∧ Result s p b [] b.cap p s' := by
      intro s1 data1 out1 hr hl he
      obtain ⟨s', e, h⟩ := ih hr.sane hr.buf out1 hl
      obtain ⟨-, a1, a2, a3⟩ := hr.same rfl
      obtain ⟨-, b1, b2, b3⟩ := h.same rfl
      simp only at e
      rw [he] at e
      exact ⟨s', e, ⟨h.buf, h.sane, hr.only.trans h.only, fun _ => ⟨rfl, b1.trans a1, b2.trans a2, b3.trans a3⟩, fun hc => absurd rfl hc⟩⟩
    cases a with
    | none =>
      rw [List.map_cons, runIo, C55_write_error hb, Res.bind_ok]
      exact step (ReszOk.refl hs hb).toResult hp rfl
    | some j =>
      obtain ⟨l, rest, s', h1, h3, e, h2⟩ := C55_write hcfg hs hb j out
      have hll := congrArg List.length h1
      rw [List.length_append] at hll
      rw [List.map_cons, runIo, e, Res.bind_ok]
      refine step h2 ?_ (by rw [h1, List.append_assoc])
      cases j with
      | zero => simp only [progress] at hp; omega
      | succ j => simp only [progress] at hp; omega

-- `hello` with the schedule: error, 2 bytes, nothing, 1 byte, 1 byte, error, 7 bytes, 1, 1
example : ∃ s', runIo isoCfg ([none, some 2, some 0, some 1, some 1, none, some 7, some 1, some 1].map .write) (some exP) (exSt exB []) [9] [62] =
    .ok (some exP, s', [9], [62, 104, 101, 108, 108, 111]) ∧ Result (exSt exB []) exP exB [] 8 exP s' :=
  C55_delivery isoCfg_ok _ (exSt_sane exB_valid []) (exSt_buf exB_valid []) [9] [62] (by decide)

/-- C55. `strview_write` writes some prefix of the view's bytes to the descriptor, reports its length, and the view becomes the rest (the invalid view if it was all written). -/
theorem C55_view_write {m : Mem} {v : View} {l : List Byte} (hv : ViewOf m v l) (j : Nat) (out : List Byte) :
    ∃ a rest v', l = a ++ rest ∧ a.length = min j l.length ∧ strview_write m (some v) (some j) out = .ok (a.length, some v', out ++ a) ∧
      Denotes m v' rest ∧ (rest ≠ [] → v' = v.part a.length rest.length) ∧ (l ≠ [] → rest = [] → v' = .invalid) ∧ (l = [] → v' = v) := by
  have hlt : (l.take j).length = min j l.length := List.length_take
  have hos := os_write_eq hv.holds j out
  have hvalid : strview_is_valid v = true := by
    simp only [strview_is_valid, decide_eq_true_eq, ne_eq]
    have := hv.pos
    omega
  have hv' : ViewOf m v (l.take j ++ l.drop j) := by rw [List.take_append_drop]; exact hv
  obtain ⟨w, ew, hw, hpart⟩ := sub_drop hv'
  by_cases h0 : min j l.length = 0
  · have ht : l.take j = [] := List.eq_nil_of_length_eq_zero (by rw [hlt, h0])
    refine ⟨[], l, v, rfl, h0.symm, ?_, hv.toDenotes, ?_, fun h1 h2 => absurd h2 h1, fun _ => rfl⟩
    · rw [strview_write]
      simp only
      rw [if_pos hvalid, hv.size, hos, Res.bind_ok]
      simp only
      rw [h0, if_neg (by decide), ht]
      rfl
    · intro _
      cases v
      simp only [View.part, View.mk.injEq, List.length_nil]
      exact ⟨by omega, hv.size⟩
  · refine ⟨l.take j, l.drop j, w, (List.take_append_drop _ _).symm, hlt, ?_, hw, hpart, ?_, ?_⟩
    · rw [strview_write]
      simp only
      rw [if_pos hvalid, hv.size, hos, Res.bind_ok]
      simp only
      rw [if_pos (by omega), ← hlt, ew, Res.bind_ok]
    · intro hne hr
      have hj : l.length ≤ j := List.drop_eq_nil_iff.1 hr
      have hinv := C05_sub_out_of_range hv hne l.length INT_MAX (by simp only [INT_MIN]; omega) (by decide) hv.max (by decide)
        (by right; left; simp only [fromEnd]; rw [if_neg (by omega)]; omega)
      rw [hlt, Nat.min_eq_right hj, hinv] at ew
      exact (Res.ok.inj ew).symm
    · intro h
      rw [h] at h0
      simp at h0

/-- C55. When `write` fails, `strview_write` reports it and leaves the view as it is. -/
theorem C55_view_write_error {m : Mem} {v : View} {l : List Byte} (hv : ViewOf m v l) (out : List Byte) :
    strview_write m (some v) none out = .ok (-1, some v, out) := by
  have hvalid : strview_is_valid v = true := by
    simp only [strview_is_valid, decide_eq_true_eq, ne_eq]
    have := hv.pos
    omega
  rw [strview_write]
  simp only
  rw [if_pos hvalid]
  rfl

/-- C55. Any number of `strview_write` calls, whatever the operating system does: the output followed by the bytes of the view is always the same; once enough calls have
transferred something, everything has been written and the view is empty. -/
theorem C55_view_delivery (sched : List (Option Nat)) {m : Mem} {v : View} {l : List Byte} (hv : Denotes m v l) (hv0 : 0 < v.data ∨ v = .invalid) (out : List Byte) :
    ∃ v' rest out', runViewWrites m sched (some v) out = .ok (some v', out') ∧ Denotes m v' rest ∧ out' ++ rest = out ++ l ∧
      (l.length ≤ progress sched → rest = [] ∧ out' = out ++ l) := by
  induction sched generalizing v l out with
  | nil =>
    refine ⟨v, l, out, rfl, hv, rfl, fun h => ?_⟩
    have h0 : l = [] := List.eq_nil_of_length_eq_zero (by simpa [progress] using h)
    exact ⟨h0, by rw [h0, List.append_nil]⟩
  | cons a r ih =>
    have step : ∀ {v1 l1 out1}, Denotes m v1 l1 → (0 < v1.data ∨ v1 = .invalid) → out1 ++ l1 = out ++ l → (l.length ≤ progress (a :: r) → l1.length ≤ progress r) →
        ∃ v' rest out', runViewWrites m r (some v1) out1 = .ok (some v', out') ∧ Denotes m v' rest ∧ out' ++ rest = out ++ l ∧
          (l.length ≤ progress (a :: r) → rest = [] ∧ out' = out ++ l) := by
      intro v1 l1 out1 h1 h2 h3 h4
      obtain ⟨v', rest, out', e, hd, he, hp⟩ := ih h1 h2 out1
      refine ⟨v', rest, out', e, hd, he.trans h3, fun h => ?_⟩
      obtain ⟨p1, p2⟩ := hp (h4 h)
      exact ⟨p1, p2.trans h3⟩
    rcases hv0 with hpos | rfl
    · have hvv : ViewOf m v l := ⟨hv, hpos⟩
      cases a with
      | none =>
        rw [runViewWrites, C55_view_write_error hvv, Res.bind_ok]
        exact step hv (.inl hpos) rfl (fun h => h)
      | some j =>
        obtain ⟨w, rest, v', h1, h2, e, h3, h4, h5, h6⟩ := C55_view_write hvv j out
        have hll := congrArg List.length h1
        rw [List.length_append] at hll
        rw [runViewWrites, e, Res.bind_ok]
        refine step h3 ?_ (by rw [h1, List.append_assoc]) ?_
        · by_cases hr : rest = []
          · by_cases hl : l = []
            · rw [h6 hl]; exact .inl hpos
            · exact .inr (h5 hl hr)
          · rw [h4 hr]; left; simp only [View.part]; omega
        · intro h
          cases j with
          | zero => simp only [progress] at h; omega
          | succ j => simp only [progress] at h; omega
    · have hl : l = [] := List.eq_nil_of_length_eq_zero (by have := hv.size; simp only [View.invalid] at this; omega)
      subst hl
      rw [runViewWrites]
      exact step hv (.inr rfl) rfl (fun _ => Nat.zero_le _)

example : ∃ v', runViewWrites (memAt 100 [104, 101, 108]) [some 2, none, some 5, some 1] (some ⟨100, 3⟩) [] = .ok (some v', [104, 101, 108]) := by
  obtain ⟨v', rest, out', e, -, -, h⟩ := C55_view_delivery [some 2, none, some 5, some 1] (viewOf_memAt 100 [104, 101, 108] (by decide) (by decide) (by decide)).toDenotes
    (.inl (by decide)) []
  obtain ⟨-, rfl⟩ := h (by decide)
  exact ⟨v', e⟩

end CStr
