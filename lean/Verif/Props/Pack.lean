import Verif.Lemmas.Pack
import Verif.Props.BufInsert
import Verif.Lemmas.BufHist
/-! Property C54: packing and unpacking integers. -/
namespace CStr

theorem Variable.writable {m : Mem} {a : Addr} {n k : Nat} (h : Variable m a n) (hk : k ≤ n) : Writable m a k := by
  intro i hi
  have := h.2.1
  have := h.1
  exact ⟨by omega, by omega, h.2.2 i (by omega)⟩

theorem Variable.put {m : Mem} {a : Addr} {n : Nat} (h : Variable m a n) {b : Addr} {l : List Byte} (hw : Writable m b l.length) :
    Variable (put m b l) a n := ⟨h.1, h.2.1, fun i hi => by rw [put_isSome _ _ _ _ hw]; exact h.2.2 i hi⟩

/-- The macro is an append of the packed bytes. -/
theorem pack_eq {cfg : Cfg} {s : St} {p : Addr} {b : Buf} (hs : s.Sane) (hb : BufAt s p b) {tmp : Addr} {n : Nat} (htmp : Variable s.mem tmp n)
    (hd : tmp + n ≤ p ∨ p + storage b.cap ≤ tmp) (h : Host) (o : Order) (t : IntTy) (hn : t.width ≤ n) (x : Int) :
    ∃ s1 : St, s1 = { s with mem := CStr.put s.mem tmp (wire o t x) } ∧ s1.Sane ∧ BufAt s1 p b ∧ Source s1 p b ⟨tmp, t.width⟩ (wire o t x) ∧
      STRBUF_PACK cfg h o t s tmp (some p) x = strbuf_append_strview cfg s1 (some p) ⟨tmp, t.width⟩ := by
  have hw : Writable s.mem tmp (wire o t x).length := htmp.writable (by rw [wire_length]; exact hn)
  have h8 := width_pos t
  refine ⟨_, rfl, Sane.put hs hw, hb.put hw (by rw [wire_length]; omega), ⟨⟨by rw [wire_length], ?_, holds_put hw⟩, ?_⟩, ?_⟩
  · rw [wire_length, INT_MAX]; omega
  · rw [wire_length]; simp only; omega
  · rw [STRBUF_PACK, repr_conv, writeBytes_eq hw, Res.bind_ok]

/-- A variable of 8 bytes in the example states. -/
theorem exVar (b : Buf) : Variable (exSt b [0, 0, 0, 0, 0, 0, 0, 0]).mem exQ 8 := by
  refine ⟨by decide, by decide, fun i hi => ?_⟩
  simp only [exSt]
  rw [if_neg (by omega)]
  exact memAt_isSome hi

/-- C54. `STRBUF_PACK_LE(dst, x)` / `STRBUF_PACK_BE(dst, x)` appends the bytes of `x` in the byte order the macro names, on little and big endian hosts alike, and
otherwise changes nothing but its temporary variable (of `t.width` bytes at `tmp`). -/
theorem C54_pack {cfg : Cfg} (hcfg : cfg.Ok) {s : St} (hs : s.Sane) {p : Addr} {b : Buf} (hb : BufAt s p b)
    (h : Host) (o : Order) (t : IntTy) {tmp : Addr} (htmp : Variable s.mem tmp t.width) (hd : tmp + t.width ≤ p ∨ p + storage b.cap ≤ tmp)
    (x : Int) (hfit : b.Fits (b.data.length + t.width)) (hh : cfg.Handles b (b.data.length + t.width)) :
    ∃ m1 : Mem, (∀ a, ¬ InRange tmp t.width a → m1 a = s.mem a) ∧
      Yields { s with mem := m1 } p b (STRBUF_PACK cfg h o t s tmp (some p) x) (b.data ++ wire o t x)
        (b.capFor cfg (b.data.length + t.width)) := by
  obtain ⟨s1, rfl, h1, h2, h3, e⟩ := pack_eq (cfg := cfg) hs hb htmp hd h o t (Nat.le_refl _) x
  refine ⟨put s.mem tmp (wire o t x), ?_, ?_⟩
  · intro a ha
    apply put_outside
    rw [wire_length]
    simp only [InRange] at ha
    omega
  · rw [e]
    have := C33_append hcfg h1 h2 h3 (by rw [wire_length]; exact hfit) (by rw [wire_length]; exact hh)
    rwa [wire_length] at this

-- packing 0xDEADBEEF into `hello` (capacity 8, so it grows), big endian order on a little endian host
example : ∃ m1 : Mem, (∀ a, ¬ InRange exQ 4 a → m1 a = (exSt exB [0, 0, 0, 0, 0, 0, 0, 0]).mem a) ∧
    Yields { exSt exB [0, 0, 0, 0, 0, 0, 0, 0] with mem := m1 } exP exB
      (STRBUF_PACK isoCfg .little .BE .u32 (exSt exB [0, 0, 0, 0, 0, 0, 0, 0]) exQ (some exP) 0xDEADBEEF)
      [104, 101, 108, 108, 111, 0xDE, 0xAD, 0xBE, 0xEF] 16 :=
  C54_pack isoCfg_ok (exSt_sane exB_valid _) (exSt_buf exB_valid _) .little .BE .u32
    ⟨by decide, by decide, fun i hi => (exVar exB).2.2 i (Nat.lt_of_lt_of_le hi (by decide))⟩ (by decide) 0xDEADBEEF (by decide) (.inr (.inr (.inl (by decide))))

example : (STRBUF_PACK isoCfg .little .BE .u32 (exSt exB [0, 0, 0, 0, 0, 0, 0, 0]) exQ (some exP) 0xDEADBEEF).isOk = true := by decide +kernel

/-- C54. `STRVIEW_UNPACK_LE(dst, view)` / `STRVIEW_UNPACK_BE(dst, view)` on a view that starts with the bytes of `x` in that byte order sets the variable to `x` and
leaves `view` with exactly the rest (when there is no rest, the invalid view), on little and big endian hosts alike. Nothing but the variable changes in memory. -/
theorem C54_unpack {m : Mem} {v : View} (h : Host) (o : Order) (t : IntTy) {x : Int} (hx : t.InRange x) {rest : List Byte}
    (hv : ViewOf m v (wire o t x ++ rest)) {dst : Addr} (hdst : Variable m dst t.width)
    (hd : dst + t.width ≤ v.data ∨ v.data + (t.width + rest.length : Nat) ≤ dst) :
    ∃ m' v', STRVIEW_UNPACK h o t m dst v = .ok (x, m', v') ∧
      Holds m' dst (repr h t.width (t.pattern x)) ∧ (∀ a, ¬ InRange dst t.width a → m' a = m a) ∧
      (rest = [] → v' = .invalid) ∧ (rest ≠ [] → v' = v.part t.width rest.length ∧ ViewOf m' v' rest) := by
  have hwp := width_pos t
  have hlen := wire_length o t x
  have h1 := (Holds.append_iff.1 hv.holds).1
  have hw : Writable m dst (wire o t x).length := hdst.writable (by rw [hlen]; exact Nat.le_refl _)
  have e1 : memcpy m dst v.data t.width = .ok (put m dst (wire o t x)) := by
    have := memcpy_eq h1 hw (.inr (by rw [hlen]; omega))
    rwa [hlen] at this
  have e2 : readBytes (put m dst (wire o t x)) dst t.width = .ok (wire o t x) := by
    have := readBytes_eq (holds_put hw)
    rwa [hlen] at this
  have hrl := repr_length h t.width (t.pattern x)
  have hw2 : Writable (put m dst (wire o t x)) dst (repr h t.width (t.pattern x)).length := by
    rw [writable_put hw, hrl, ← hlen]; exact hw
  have hout : ∀ a, ¬ InRange dst t.width a → put (put m dst (wire o t x)) dst (repr h t.width (t.pattern x)) a = m a := by
    intro a ha
    simp only [InRange] at ha
    rw [put_outside (by rw [hrl]; omega), put_outside (by rw [hlen]; omega)]
  obtain ⟨w, e4, hw4, hw5⟩ := sub_drop hv
  refine ⟨put (put m dst (wire o t x)) dst (repr h t.width (t.pattern x)), w, ?_, holds_put hw2, hout, ?_, ?_⟩
  · rw [STRVIEW_UNPACK, e1, Res.bind_ok, e2, Res.bind_ok, conv_wire]
    simp only
    rw [writeBytes_eq hw2, Res.bind_ok]
    rw [hlen] at e4
    rw [e4, Res.bind_ok, value_pattern t hx]
  · intro hr
    subst hr
    have hne : wire o t x ++ [] ≠ [] := by
      intro h0
      have := congrArg List.length h0
      simp only [List.append_nil, hlen, List.length_nil] at this
      omega
    have hm := hv.max
    have := C05_sub_out_of_range hv hne t.width INT_MAX (by simp only [INT_MIN]; omega) (by decide)
      (by rw [List.length_append, hlen] at hm; simp only [List.length_nil] at hm; omega) (by decide)
      (by rw [List.append_nil, hlen]; right; left; simp only [fromEnd]; rw [if_neg (by omega)]; omega)
    rw [hlen] at e4
    rw [e4] at this
    exact Res.ok.inj this
  · intro hr
    have hpart := hw5 hr
    rw [hlen] at hpart
    refine ⟨hpart, ?_⟩
    have hv2 := hv.part t.width rest.length (by rw [List.length_append, hlen]; omega)
    have hdl : (wire o t x ++ rest).drop t.width = rest := by rw [← hlen, List.drop_left]
    rw [hdl, List.take_length] at hv2
    rw [hpart]
    refine ⟨⟨hv2.size, hv2.max, hv2.holds.congr ?_⟩, hv2.pos⟩
    intro i hi
    apply hout
    simp only [InRange, View.part]
    omega

-- unpacking -2 as a big endian 16 bit integer, on a big endian host, from a view with one more byte
example : ∃ m' v', STRVIEW_UNPACK .big .BE .i16 (memAt 100 [0xFF, 0xFE, 65, 0, 0, 0]) 104 ⟨100, 3⟩ = .ok (-2, m', v') ∧ v' = ⟨102, 1⟩ := by
  have hv : ViewOf (memAt 100 [0xFF, 0xFE, 65, 0, 0, 0]) ⟨100 + (0 : Nat), (3 : Nat)⟩ (wire .BE .i16 (-2) ++ [65]) :=
    viewOf_memAt_part 100 [0xFF, 0xFE, 65, 0, 0, 0] 0 3 _ (by decide) (by decide) (by decide) (by decide) (by decide)
  obtain ⟨m', v', e, -, -, -, h⟩ := C54_unpack .big .BE .i16 ⟨by decide, by decide⟩ hv (dst := 104)
    ⟨by decide, by decide, fun i hi => by
      rw [show (104 : Int) + (i : Int) = 100 + ((4 + i : Nat) : Int) by omega]
      exact memAt_isSome (by simp only [IntTy.width] at hi; simp only [List.length_cons, List.length_nil]; omega)⟩ (by decide)
  exact ⟨m', v', e, (h (by decide)).1⟩

theorem readBytes_hole {m : Mem} {a : Addr} {n k : Nat} (hk : k < n) (h : rd m (a + k) = none) : ∃ w, readBytes m a n = .ub w := by
  induction k generalizing a n with
  | zero =>
    obtain ⟨n, rfl⟩ : ∃ j, n = j + 1 := ⟨n - 1, by omega⟩
    rw [show a + ((0 : Nat) : Int) = a by omega] at h
    simp only [readBytes, load, h]
    exact ⟨_, rfl⟩
  | succ k ih =>
    obtain ⟨n, rfl⟩ : ∃ j, n = j + 1 := ⟨n - 1, by omega⟩
    obtain ⟨w, hw⟩ := ih (a := a + 1) (n := n) (by omega) (by rw [← h]; congr 1; omega)
    simp only [readBytes, load]
    cases rd m a with
    | none => exact ⟨_, rfl⟩
    | some b => exact ⟨w, by simp only [Res.bind_ok, hw]; rfl⟩

/-- C54. The macros do not look at the size of the view: if the memory ends where a view that is too short for the variable ends, unpacking is undefined behaviour. -/
theorem C54_short_view_undefined (h : Host) (o : Order) (t : IntTy) {m : Mem} {v : View} {l : List Byte} (hv : ViewOf m v l) (hshort : l.length < t.width)
    (hend : rd m (v.data + l.length) = none) (dst : Addr) : ∃ w, STRVIEW_UNPACK h o t m dst v = .ub w := by
  obtain ⟨w, hw⟩ := readBytes_hole hshort hend
  have _ := hv.pos
  rw [STRVIEW_UNPACK, memcpy]
  split
  · exact ⟨_, rfl⟩
  · rw [memmove, hw]; exact ⟨w, rfl⟩

example : ∃ w, STRVIEW_UNPACK .little .LE .u32 (memAt 100 [1, 2, 3]) 200 ⟨100, 3⟩ = .ub w :=
  C54_short_view_undefined .little .LE .u32 (viewOf_memAt 100 [1, 2, 3] (by decide) (by decide) (by decide)) (by decide) (by decide) 200

theorem wires_cons (i : Item) (r : List Item) : wires (i :: r) = wire i.order i.ty i.val ++ wires r := rfl

theorem Cfg.Handles.le {cfg : Cfg} {b : Buf} {n k : Nat} (h : cfg.Handles b n) (hk : k ≤ n) : cfg.Handles b k := by
  rcases h with h | h | h | ⟨h1, h2⟩
  · exact .inl h
  · exact .inr (.inl (by omega))
  · exact .inr (.inr (.inl (by omega)))
  · exact .inr (.inr (.inr ⟨h1, by omega⟩))

theorem capFor_ge {cfg : Cfg} (hcfg : cfg.Ok) (b : Buf) (n : Nat) : b.cap ≤ b.capFor cfg n := by
  have := hcfg.pos
  simp only [Buf.capFor]
  split
  · next h => exact cap_le_grownCap (by omega) h.2
  · exact Nat.le_refl _

/-- A range of mapped addresses outside the old block is outside the new one. -/
theorem OnlyBlock.stays_out {s s' : St} {p p' : Addr} {n n' : Nat} (h : OnlyBlock s s' p n p' n') (hn' : 0 < n') {a : Addr} {k : Nat} (hk : 0 < k)
    (hm : ∀ i : Nat, i < k → (s.mem (a + i)).isSome) (hd : a + k ≤ p ∨ p + n ≤ a) :
    (a + k ≤ p' ∨ p' + n' ≤ a) ∧ ∀ i : Nat, i < k → s'.mem (a + i) = s.mem (a + i) := by
  have h1 : ∀ i : Nat, i < k → ¬ InRange p n (a + i) := by intro i hi; simp only [InRange]; omega
  have h2 : ∀ i : Nat, i < k → ¬ InRange p' n' (a + i) := by
    intro i hi hr
    have := hm i hi
    rw [h.fresh _ hr (h1 i hi)] at this
    cases this
  refine ⟨?_, fun i hi => h.outside _ (h1 i hi) (h2 i hi)⟩
  have h3 := h2 0 hk
  simp only [InRange] at h2 h3
  by_cases h4 : a < p'
  · left
    by_cases h5 : a + k ≤ p'
    · exact h5
    · exfalso
      exact h2 (p' - a).toNat (by omega) (by omega)
  · omega

/-- C54. Packing any sequence of integers appends their bytes in order: on success the buffer, wherever it is now, holds its old content followed by the bytes of all of them. -/
theorem C54_pack_all {cfg : Cfg} (hcfg : cfg.Ok) (h : Host) {tmp : Addr} (l : List Item) {s : St} (hs : s.Sane) {p : Addr} {b : Buf} (hb : BufAt s p b)
    (htmp : Variable s.mem tmp 8) (hd : tmp + 8 ≤ p ∨ p + storage b.cap ≤ tmp)
    (hfit : b.Fits (b.data.length + (wires l).length)) (hh : cfg.Handles b (b.data.length + (wires l).length)) :
    packAll cfg h tmp l (some p) s = .env .alloc ∨
      ∃ p' s' cap, packAll cfg h tmp l (some p) s = .ok (some p', s') ∧ s'.Sane ∧ BufAt s' p' ⟨b.data ++ wires l, cap, b.al⟩ ∧
        Variable s'.mem tmp 8 ∧ (tmp + 8 ≤ p' ∨ p' + storage cap ≤ tmp) := by
  induction l generalizing s p b with
  | nil =>
    refine .inr ⟨p, s, b.cap, rfl, hs, ?_, htmp, hd⟩
    rw [show wires [] = [] from rfl, List.append_nil]
    exact hb
  | cons i r ih =>
    rw [wires_cons, List.length_append, wire_length] at hfit hh
    obtain ⟨s1, hs1, h1, h2, h3, e⟩ := pack_eq (cfg := cfg) hs hb htmp hd h i.order i.ty (width_pos i.ty).2 i.val
    have hv1 : Variable s1.mem tmp 8 := by
      rw [hs1]
      exact htmp.put (htmp.writable (by rw [wire_length]; exact (width_pos i.ty).2))
    have hfit1 : b.Fits (b.data.length + (wire i.order i.ty i.val).length) := by
      rw [wire_length]
      rcases hfit with hf | ⟨hf1, hf2⟩
      · exact .inl (by omega)
      · exact .inr ⟨hf1, by omega⟩
    have hy := C33_append hcfg h1 h2 h3 hfit1 (hh.le (by rw [wire_length]; omega))
    rcases hy with ⟨-, ee⟩ | ⟨p', s', ee, hr⟩
    · left
      rw [packAll, e, ee, Res.bind_env]
    · have hstay := hr.only.stays_out (by simp only [storage]; omega) (by decide : 0 < 8) hv1.2.2 hd
      have hv' : Variable s'.mem tmp 8 := ⟨hv1.1, hv1.2.1, fun j hj => by rw [hstay.2 j hj]; exact hv1.2.2 j hj⟩
      have hcap := capFor_ge hcfg b (b.data.length + (wire i.order i.ty i.val).length)
      have hih := ih hr.sane hr.buf hv' hstay.1
        (by
          simp only [List.length_append, wire_length]
          rcases hfit with hf | ⟨hf1, hf2⟩
          · rw [wire_length] at hcap
            exact .inl (by simp only; omega)
          · exact .inr ⟨hf1, by omega⟩)
        (by
          simp only [List.length_append, wire_length]
          rw [wire_length] at hcap
          rcases hh with hf | hf | hf | ⟨hf1, hf2⟩
          · exact .inl hf
          · exact .inr (.inl (by simp only; omega))
          · exact .inr (.inr (.inl (by omega)))
          · exact .inr (.inr (.inr ⟨hf1, by omega⟩)))
      simp only at hih
      rw [packAll, e, ee, Res.bind_ok]
      simp only
      rw [wires_cons, ← List.append_assoc]
      exact hih

/-- C54. Unpacking gives back the integers, in order, whichever kind of host packed them and whichever kind unpacks them. -/
theorem C54_unpack_all (h : Host) {dst : Addr} (l : List Item) (hl : ∀ i ∈ l, i.ty.InRange i.val) {rest : List Byte} {m : Mem} {v : View}
    (hv : ViewOf m v (wires l ++ rest)) (hdst : Variable m dst 8) (hd : dst + 8 ≤ v.data ∨ v.data + ((wires l).length + rest.length : Nat) ≤ dst) :
    ∃ v' m', unpackAll h dst (l.map fun i => (i.order, i.ty)) v m = .ok (l.map (·.val), v', m') ∧ Denotes m' v' rest ∧
      ∀ a, ¬ InRange dst 8 a → m' a = m a := by
  induction l generalizing m v with
  | nil => exact ⟨v, m, rfl, hv.toDenotes, fun _ _ => rfl⟩
  | cons i r ih =>
    have h8 := width_pos i.ty
    rw [wires_cons, List.append_assoc] at hv
    rw [wires_cons, List.length_append, wire_length] at hd
    obtain ⟨m1, v1, e, -, hm1, hn, hc⟩ := C54_unpack h i.order i.ty (hl i (List.mem_cons_self ..)) hv
      ⟨hdst.1, by have := hdst.2.1; omega, fun j hj => hdst.2.2 j (by omega)⟩ (by rw [List.length_append]; omega)
    have hdst1 : Variable m1 dst 8 := by
      refine ⟨hdst.1, hdst.2.1, fun j hj => ?_⟩
      by_cases hj' : j < i.ty.width
      · have hrd := C54_unpack h i.order i.ty (hl i (List.mem_cons_self ..)) hv
          ⟨hdst.1, by have := hdst.2.1; omega, fun j hj => hdst.2.2 j (by omega)⟩ (by rw [List.length_append]; omega)
        obtain ⟨m2, v2, e2, hh2, -⟩ := hrd
        rw [e] at e2; cases e2
        have hr := hh2 j (by rw [repr_length]; exact hj')
        have := hdst.1
        have := hdst.2.1
        simp only [rd] at hr
        rw [if_neg (by omega), if_neg (by omega)] at hr
        rw [hr]; rfl
      · rw [hm1 _ (by simp only [InRange]; omega)]
        exact hdst.2.2 j hj
    by_cases hne : wires r ++ rest = []
    · obtain ⟨hr0, hrest⟩ := List.append_eq_nil_iff.1 hne
      have hr : r = [] := by
        cases r with
        | nil => rfl
        | cons j r =>
          have := congrArg List.length hr0
          rw [wires_cons, List.length_append, wire_length, List.length_nil] at this
          have := width_pos j.ty
          omega
      subst hr hrest
      refine ⟨v1, m1, ?_, ?_, fun a ha => hm1 a (by simp only [InRange] at ha ⊢; omega)⟩
      · simp only [List.map_cons, List.map_nil, unpackAll, e, Res.bind_ok]
      · rw [hn hne]; exact Denotes.invalid m1
    · obtain ⟨hv1, hv2⟩ := hc hne
      obtain ⟨v', m', e', hd', ho'⟩ := ih (fun j hj => hl j (List.mem_cons_of_mem _ hj)) hv2 hdst1
        (by rw [hv1]; simp only [View.part]; omega)
      refine ⟨v', m', ?_, hd', ?_⟩
      · simp only [List.map_cons, unpackAll, e, Res.bind_ok, e']
      · intro a ha
        rw [ho' a ha, hm1 a (by simp only [InRange] at ha ⊢; omega)]

/-- C54. Round trip: integers of any types and byte orders packed into an empty buffer on a host `h`, then unpacked from the view of the buffer on a host `h'`, come back unchanged, and
the view is used up exactly. -/
theorem C54_round_trip {cfg : Cfg} (hcfg : cfg.Ok) (h h' : Host) {tmp dst : Addr} (l : List Item) (hl : ∀ i ∈ l, i.ty.InRange i.val) {s : St} (hs : s.Sane)
    {p : Addr} {b : Buf} (hb : BufAt s p b) (hb0 : b.data = [])
    (htmp : Variable s.mem tmp 8) (hd : tmp + 8 ≤ p ∨ p + storage b.cap ≤ tmp)
    (hfit : b.Fits (wires l).length) (hh : cfg.Handles b (wires l).length) :
    packAll cfg h tmp l (some p) s = .env .alloc ∨
      ∃ p' s' v, packAll cfg h tmp l (some p) s = .ok (some p', s') ∧ strbuf_view s'.mem (some p') = .ok v ∧ ViewOf s'.mem v (wires l) ∧
        (Variable s'.mem dst 8 → dst + 8 ≤ v.data ∨ v.data + v.size ≤ dst →
          ∃ v' m', unpackAll h' dst (l.map fun i => (i.order, i.ty)) v s'.mem = .ok (l.map (·.val), v', m') ∧ v'.size = 0) := by
  rcases C54_pack_all hcfg h l hs hb htmp hd (by rw [hb0]; simpa using hfit) (by rw [hb0]; simpa using hh) with e | ⟨p', s', cap, e, hs', hb', -⟩
  · exact .inl e
  · rw [hb0, List.nil_append] at hb'
    refine .inr ⟨p', s', ⟨p' + 24, (wires l).length⟩, e, ?_, ?_, ?_⟩
    · rw [strbuf_view, deref_some hb'.pos]; exact hb'.view
    · have := hb'.viewOf; exact this
    · intro h1 h2
      have hv : ViewOf s'.mem ⟨p' + 24, (wires l).length⟩ (wires l ++ []) := by rw [List.append_nil]; exact hb'.viewOf
      obtain ⟨v', m', e', hd', -⟩ := C54_unpack_all h' l hl hv h1 (by simp only [List.length_nil, Nat.add_zero] at h2 ⊢; exact h2)
      exact ⟨v', m', e', hd'.size⟩

-- a 16 bit little endian, a 64 bit big endian and a signed byte through `hello`'s buffer, emptied: packed on a big endian host, unpacked on a little endian one
def exItems : List Item := [⟨.LE, .u16, 513⟩, ⟨.BE, .u64, 18446744073709551614⟩, ⟨.LE, .i8, -1⟩]

def exE : Buf := ⟨[], 8, ⟨0, 1⟩⟩

theorem exE_valid : exE.Valid := ⟨by decide, by decide, by decide, by decide⟩

theorem exItems_range : ∀ i ∈ exItems, i.ty.InRange i.val := by
  intro i hi
  simp only [exItems, List.mem_cons, List.not_mem_nil, or_false] at hi
  rcases hi with rfl | rfl | rfl <;> exact ⟨by decide, by decide⟩

example : wires exItems = [1, 2, 255, 255, 255, 255, 255, 255, 255, 254, 255] := by decide

example : ∃ p' s' v, packAll isoCfg .big exQ exItems (some exP) (exSt exE [0, 0, 0, 0, 0, 0, 0, 0]) = .ok (some p', s') ∧
    strbuf_view s'.mem (some p') = .ok v ∧ ViewOf s'.mem v (wires exItems) := by
  rcases C54_round_trip isoCfg_ok .big .little (dst := exQ) exItems exItems_range (exSt_sane exE_valid _) (exSt_buf exE_valid _) rfl (exVar exE) (by decide)
    (by decide) (.inr (.inr (.inl (by decide)))) with e | ⟨p', s', v, e, e1, e2, -⟩
  · have : (packAll isoCfg .big exQ exItems (some exP) (exSt exE [0, 0, 0, 0, 0, 0, 0, 0])).isOk = true := by decide +kernel
    rw [e] at this; cases this
  · exact ⟨p', s', v, e, e1, e2⟩

end CStr
