import Verif.Lemmas.BufExamples
/-! Properties C33, C34, C35, C36: adding and replacing content.

In all statements `Yields s p b r data cap` (Spec/Buf.lean) says that the call `r`, made in state `s` on the buffer `b` at `p`, leaves a well-formed
buffer with content `data` and capacity `cap`, returns exactly the view of that content, and changes nothing else; the buffer may have moved.
`Source` is a view of memory outside the buffer or of any part of its content. -/
namespace CStr

/-- A C string is a legitimate source if it is outside the buffer or inside its content. -/
theorem CString.source {s : St} {p : Addr} {b : Buf} {a : Addr} {S : List Byte} (h : CString s.mem a S)
    (hp : a + S.length ≤ p ∨ p + storage b.cap ≤ a ∨ (p + 24 ≤ a ∧ a + S.length ≤ p + 24 + b.data.length)) :
    Source s p b ⟨a, S.length⟩ S :=
  ⟨h.viewOf.toDenotes, .inr hp⟩

/-- C33. `strbuf_append` makes the content `old ++ bytes(v)`. -/
theorem C33_append {cfg : Cfg} (hcfg : cfg.Ok) {s : St} (hs : s.Sane) {p : Addr} {b : Buf} (hb : BufAt s p b)
    {v : View} {S : List Byte} (hv : Source s p b v S) (hfit : b.Fits (b.data.length + S.length))
    (hh : cfg.Handles b (b.data.length + S.length)) :
    Yields s p b (strbuf_append_strview cfg s (some p) v) (b.data ++ S) (b.capFor cfg (b.data.length + S.length)) := by
  have h := insert_yields hcfg hs hb hv (intmin_nat b.data.length) hh
  rw [if_pos hfit, insertPos_nat (Nat.le_refl _), List.take_length, List.drop_length, List.append_nil] at h
  simp only [strbuf_append_strview, deref_some hb.pos, hb.getSize, Res.bind_ok]
  exact h

/-- C33. The same for a C string argument. -/
theorem C33_append_cstr {cfg : Cfg} (hcfg : cfg.Ok) {s : St} (hs : s.Sane) {p : Addr} {b : Buf} (hb : BufAt s p b)
    {a : Addr} {S : List Byte} (ha : CString s.mem a S)
    (hp : a + S.length ≤ p ∨ p + storage b.cap ≤ a ∨ (p + 24 ≤ a ∧ a + S.length ≤ p + 24 + b.data.length))
    (hfit : b.Fits (b.data.length + S.length)) (hh : cfg.Handles b (b.data.length + S.length)) :
    Yields s p b (strbuf_append_cstr cfg s (some p) a) (b.data ++ S) (b.capFor cfg (b.data.length + S.length)) := by
  simp only [strbuf_append_cstr, cstr_eq ha, Res.bind_ok]
  exact C33_append hcfg hs hb (ha.source hp) hfit hh

/-- C33. Appending a buffer's own whole content doubles it. -/
theorem C33_append_self {cfg : Cfg} (hcfg : cfg.Ok) {s : St} (hs : s.Sane) {p : Addr} {b : Buf} (hb : BufAt s p b)
    (hfit : b.Fits (b.data.length + b.data.length)) (hh : cfg.Handles b (b.data.length + b.data.length)) :
    ∃ v, strbuf_view s.mem (some p) = .ok v ∧
      Yields s p b (strbuf_append_strview cfg s (some p) v) (b.data ++ b.data) (b.capFor cfg (b.data.length + b.data.length)) := by
  refine ⟨⟨p + 24, b.data.length⟩, ?_, ?_⟩
  · simp only [strbuf_view, deref_some hb.pos]; exact hb.view
  · have h := hb.partSource 0 b.data.length (by omega)
    rw [List.drop_zero, List.take_length, show p + 24 + ((0 : Nat) : Int) = p + 24 by omega] at h
    exact C33_append hcfg hs hb h hfit hh

/-- Example buffer: `hello` in a dynamic buffer of capacity 8. -/
def exB : Buf := ⟨[104, 101, 108, 108, 111], 8, ⟨0, 1⟩⟩

theorem exB_valid : exB.Valid := ⟨by decide, by decide, by decide, by decide⟩

/-- The same with fixed capacity. -/
def exF : Buf := ⟨[104, 101, 108, 108, 111], 8, ⟨0, 0⟩⟩

theorem exF_valid : exF.Valid := ⟨by decide, by decide, by decide, by decide⟩

def exCfg : Cfg := ⟨true, 16⟩

theorem exCfg_ok : exCfg.Ok := ⟨by decide, by decide⟩

/-- The ISO C configuration. -/
def isoCfg : Cfg := ⟨false, 16⟩

theorem isoCfg_ok : isoCfg.Ok := ⟨by decide, by decide⟩

-- appending 5 bytes from elsewhere to `hello` grows the capacity from 8 to 16, and the allocator moves the buffer
example : Yields (exSt exB [1, 2, 3, 4, 5]) exP exB
    (strbuf_append_strview isoCfg (exSt exB [1, 2, 3, 4, 5]) (some exP) ⟨exQ, 5⟩)
    [104, 101, 108, 108, 111, 1, 2, 3, 4, 5] 16 :=
  C33_append isoCfg_ok (exSt_sane exB_valid _) (exSt_buf exB_valid _) (exSt_source exB_valid (by decide))
    (by decide) (.inr (.inr (.inl (by decide))))

-- and the call does end normally
example : (strbuf_append_strview isoCfg (exSt exB [1, 2, 3, 4, 5]) (some exP) ⟨exQ, 5⟩).isOk = true := by decide +kernel

-- appending `ell` of `hello` to itself, with growing
example : Yields (exSt exB []) exP exB (strbuf_append_strview isoCfg (exSt exB []) (some exP) ⟨exP + 24 + (1 : Nat), (4 : Nat)⟩)
    [104, 101, 108, 108, 111, 101, 108, 108, 111] 16 :=
  C33_append isoCfg_ok (exSt_sane exB_valid _) (exSt_buf exB_valid _) ((exSt_buf exB_valid _).partSource 1 4 (by decide))
    (by decide) (.inr (.inr (.inl (by decide))))

example : (strbuf_append_strview isoCfg (exSt exB []) (some exP) ⟨exP + 24 + 1, 4⟩).isOk = true := by decide +kernel

/-- C34. `strbuf_insert_at_index` inserts at the position selected by the index, also from the buffer's own content. -/
theorem C34_insert {cfg : Cfg} (hcfg : cfg.Ok) {s : St} (hs : s.Sane) {p : Addr} {b : Buf} (hb : BufAt s p b)
    {v : View} {S : List Byte} (hv : Source s p b v S) {i : Int} (hi : INT_MIN ≤ i) (_hi' : i ≤ INT_MAX)
    (hfit : b.Fits (b.data.length + S.length)) (hh : cfg.Handles b (b.data.length + S.length)) :
    Yields s p b (strbuf_insert_at_index_strview cfg s (some p) i v)
      (b.data.take (insertPos b.data.length i) ++ S ++ b.data.drop (insertPos b.data.length i))
      (b.capFor cfg (b.data.length + S.length)) := by
  have h := insert_yields hcfg hs hb hv hi hh
  rw [if_pos hfit] at h
  simp only [strbuf_insert_at_index_strview, deref_some hb.pos]
  exact h

/-- C34. The same for a C string argument. -/
theorem C34_insert_cstr {cfg : Cfg} (hcfg : cfg.Ok) {s : St} (hs : s.Sane) {p : Addr} {b : Buf} (hb : BufAt s p b)
    {a : Addr} {S : List Byte} (ha : CString s.mem a S)
    (hp : a + S.length ≤ p ∨ p + storage b.cap ≤ a ∨ (p + 24 ≤ a ∧ a + S.length ≤ p + 24 + b.data.length))
    {i : Int} (hi : INT_MIN ≤ i) (hi' : i ≤ INT_MAX)
    (hfit : b.Fits (b.data.length + S.length)) (hh : cfg.Handles b (b.data.length + S.length)) :
    Yields s p b (strbuf_insert_at_index_cstr cfg s (some p) i a)
      (b.data.take (insertPos b.data.length i) ++ S ++ b.data.drop (insertPos b.data.length i))
      (b.capFor cfg (b.data.length + S.length)) := by
  simp only [strbuf_insert_at_index_cstr, cstr_eq ha, Res.bind_ok]
  exact C34_insert hcfg hs hb (ha.source hp) hi hi' hfit hh

/-- C34. `strbuf_prepend` inserts at the front. -/
theorem C34_prepend {cfg : Cfg} (hcfg : cfg.Ok) {s : St} (hs : s.Sane) {p : Addr} {b : Buf} (hb : BufAt s p b)
    {v : View} {S : List Byte} (hv : Source s p b v S)
    (hfit : b.Fits (b.data.length + S.length)) (hh : cfg.Handles b (b.data.length + S.length)) :
    Yields s p b (strbuf_prepend_strview cfg s (some p) v) (S ++ b.data) (b.capFor cfg (b.data.length + S.length)) := by
  have h := insert_yields hcfg hs hb hv (i := 0) (by decide) hh
  have e : insertPos b.data.length 0 = 0 := by simp only [insertPos]; rw [if_neg (by omega)]; simp
  rw [if_pos hfit, e, List.take_zero, List.drop_zero, List.nil_append] at h
  simp only [strbuf_prepend_strview, deref_some hb.pos]
  exact h

/-- C34. The same for a C string argument. -/
theorem C34_prepend_cstr {cfg : Cfg} (hcfg : cfg.Ok) {s : St} (hs : s.Sane) {p : Addr} {b : Buf} (hb : BufAt s p b)
    {a : Addr} {S : List Byte} (ha : CString s.mem a S)
    (hp : a + S.length ≤ p ∨ p + storage b.cap ≤ a ∨ (p + 24 ≤ a ∧ a + S.length ≤ p + 24 + b.data.length))
    (hfit : b.Fits (b.data.length + S.length)) (hh : cfg.Handles b (b.data.length + S.length)) :
    Yields s p b (strbuf_prepend_cstr cfg s (some p) a) (S ++ b.data) (b.capFor cfg (b.data.length + S.length)) := by
  simp only [strbuf_prepend_cstr, cstr_eq ha, Res.bind_ok]
  exact C34_prepend hcfg hs hb (ha.source hp) hfit hh

/-- C34. What `insertPos` is, in terms of the documentation: indexes at or after the end select the end, non-negative ones select
themselves, negative ones count from the end, and those before the beginning select the beginning. -/
theorem C34_position (n : Nat) (i : Int) :
    ((n : Int) ≤ i → insertPos n i = n) ∧ (0 ≤ i → i ≤ n → (insertPos n i : Int) = i) ∧
    (i < 0 → -(n : Int) ≤ i → (insertPos n i : Int) = n + i) ∧ (i < -(n : Int) → insertPos n i = 0) := by
  simp only [insertPos]
  refine ⟨fun h => ?_, fun h1 h2 => ?_, fun h1 h2 => ?_, fun h => ?_⟩ <;> split <;> omega

-- inserting `ell` of `hello` before its last character (a source that straddles the insertion point), with growing and moving
example : Yields (exSt exB []) exP exB
    (strbuf_insert_at_index_strview isoCfg (exSt exB []) (some exP) (-2) ⟨exP + 24 + (1 : Nat), (4 : Nat)⟩)
    [104, 101, 108, 101, 108, 108, 111, 108, 111] 16 :=
  C34_insert isoCfg_ok (exSt_sane exB_valid _) (exSt_buf exB_valid _) ((exSt_buf exB_valid _).partSource 1 4 (by decide))
    (by decide) (by decide) (by decide) (.inr (.inr (.inl (by decide))))

example : (strbuf_insert_at_index_strview isoCfg (exSt exB []) (some exP) (-2) ⟨exP + 24 + 1, 4⟩).isOk = true := by decide +kernel

/-- C35. `strbuf_insert_before` inserts at the start of a view located at offset `k` of the content. -/
theorem C35_insert_before {cfg : Cfg} (hcfg : cfg.Ok) {s : St} (hs : s.Sane) {p : Addr} {b : Buf} (hb : BufAt s p b)
    {v : View} {S : List Byte} (hv : Source s p b v S) {dst : View} {k : Nat} (hk : k ≤ b.data.length) (hd : dst.data = p + 24 + k)
    (hfit : b.Fits (b.data.length + S.length)) (hh : cfg.Handles b (b.data.length + S.length)) :
    Yields s p b (strbuf_insert_before_strview cfg s (some p) dst v) (b.data.take k ++ S ++ b.data.drop k)
      (b.capFor cfg (b.data.length + S.length)) := by
  have h := insert_yields hcfg hs hb hv (intmin_nat k) hh
  rw [if_pos hfit, insertPos_nat hk] at h
  simp only [strbuf_insert_before_strview, deref_some hb.pos, hb.getSize, Res.bind_ok, hd]
  rw [if_pos (by simp only [cstrOf, hdrLen]; omega)]
  have e : p + 24 + (k : Int) - cstrOf p = k := by simp only [cstrOf, hdrLen]; omega
  rw [e]; exact h

/-- C35. The same for a C string argument. -/
theorem C35_insert_before_cstr {cfg : Cfg} (hcfg : cfg.Ok) {s : St} (hs : s.Sane) {p : Addr} {b : Buf} (hb : BufAt s p b)
    {a : Addr} {S : List Byte} (ha : CString s.mem a S)
    (hp : a + S.length ≤ p ∨ p + storage b.cap ≤ a ∨ (p + 24 ≤ a ∧ a + S.length ≤ p + 24 + b.data.length))
    {dst : View} {k : Nat} (hk : k ≤ b.data.length) (hd : dst.data = p + 24 + k)
    (hfit : b.Fits (b.data.length + S.length)) (hh : cfg.Handles b (b.data.length + S.length)) :
    Yields s p b (strbuf_insert_before_cstr cfg s (some p) dst a) (b.data.take k ++ S ++ b.data.drop k)
      (b.capFor cfg (b.data.length + S.length)) := by
  simp only [strbuf_insert_before_cstr, cstr_eq ha, Res.bind_ok]
  exact C35_insert_before hcfg hs hb (ha.source hp) hk hd hfit hh

/-- C35. `strbuf_insert_after` inserts at the end of a valid view that ends at offset `k` of the content. -/
theorem C35_insert_after {cfg : Cfg} (hcfg : cfg.Ok) {s : St} (hs : s.Sane) {p : Addr} {b : Buf} (hb : BufAt s p b)
    {v : View} {S : List Byte} (hv : Source s p b v S) {dst : View} {k : Nat} (hk : k ≤ b.data.length) (hval : dst.data ≠ 0)
    (hd : dst.data + dst.size = p + 24 + k)
    (hfit : b.Fits (b.data.length + S.length)) (hh : cfg.Handles b (b.data.length + S.length)) :
    Yields s p b (strbuf_insert_after_strview cfg s (some p) dst v) (b.data.take k ++ S ++ b.data.drop k)
      (b.capFor cfg (b.data.length + S.length)) := by
  have h := insert_yields hcfg hs hb hv (intmin_nat k) hh
  rw [if_pos hfit, insertPos_nat hk] at h
  have hv' : strview_is_valid dst = true := by simp only [strview_is_valid]; exact decide_eq_true hval
  simp only [strbuf_insert_after_strview, deref_some hb.pos, hv', if_true, hb.getSize, Res.bind_ok, hd]
  rw [if_pos (by simp only [cstrOf, hdrLen]; omega)]
  have e : p + 24 + (k : Int) - cstrOf p = k := by simp only [cstrOf, hdrLen]; omega
  rw [e]; exact h

/-- C35. The same for a C string argument. -/
theorem C35_insert_after_cstr {cfg : Cfg} (hcfg : cfg.Ok) {s : St} (hs : s.Sane) {p : Addr} {b : Buf} (hb : BufAt s p b)
    {a : Addr} {S : List Byte} (ha : CString s.mem a S)
    (hp : a + S.length ≤ p ∨ p + storage b.cap ≤ a ∨ (p + 24 ≤ a ∧ a + S.length ≤ p + 24 + b.data.length))
    {dst : View} {k : Nat} (hk : k ≤ b.data.length) (hval : dst.data ≠ 0) (hd : dst.data + dst.size = p + 24 + k)
    (hfit : b.Fits (b.data.length + S.length)) (hh : cfg.Handles b (b.data.length + S.length)) :
    Yields s p b (strbuf_insert_after_cstr cfg s (some p) dst a) (b.data.take k ++ S ++ b.data.drop k)
      (b.capFor cfg (b.data.length + S.length)) := by
  simp only [strbuf_insert_after_cstr, cstr_eq ha, Res.bind_ok]
  exact C35_insert_after hcfg hs hb (ha.source hp) hk hval hd hfit hh

/-- C35. If the place is not in the buffer's content, nothing is changed and the view of the content is returned. -/
theorem C35_not_located (cfg : Cfg) {s : St} {p : Addr} {b : Buf} (hb : BufAt s p b) (dst v : View) :
    ((dst.data < p + 24 ∨ p + 24 + b.data.length < dst.data) →
      strbuf_insert_before_strview cfg s (some p) dst v = .ok (⟨p + 24, b.data.length⟩, some p, s)) ∧
    ((dst.data = 0 ∨ dst.data + dst.size < p + 24 ∨ p + 24 + b.data.length < dst.data + dst.size) →
      strbuf_insert_after_strview cfg s (some p) dst v = .ok (⟨p + 24, b.data.length⟩, some p, s)) := by
  constructor
  · intro h
    simp only [strbuf_insert_before_strview, deref_some hb.pos, hb.getSize, Res.bind_ok]
    rw [if_neg (by simp only [cstrOf, hdrLen]; omega), view_or_invalid_some hb]
  · intro h
    simp only [strbuf_insert_after_strview, deref_some hb.pos, hb.getSize, Res.bind_ok]
    rw [view_or_invalid_some hb]
    by_cases h0 : dst.data = 0
    · have hv' : strview_is_valid dst = false := by simp only [strview_is_valid]; exact decide_eq_false (by omega)
      rw [hv', if_neg Bool.false_ne_true]
    · have hv' : strview_is_valid dst = true := by simp only [strview_is_valid]; exact decide_eq_true h0
      rw [hv', if_pos rfl, if_neg (by simp only [cstrOf, hdrLen]; omega)]

-- `hello`: insert its own `hell` after the first `l`
example : Yields (exSt exB []) exP exB
    (strbuf_insert_after_strview isoCfg (exSt exB []) (some exP) ⟨exP + 24 + 2, 1⟩ ⟨exP + 24 + (0 : Nat), (4 : Nat)⟩)
    [104, 101, 108, 104, 101, 108, 108, 108, 111] 16 :=
  C35_insert_after isoCfg_ok (exSt_sane exB_valid _) (exSt_buf exB_valid _) ((exSt_buf exB_valid _).partSource 0 4 (by decide))
    (k := 3) (by decide) (by decide) (by decide) (by decide) (.inr (.inr (.inl (by decide))))

example : (strbuf_insert_after_strview isoCfg (exSt exB []) (some exP) ⟨exP + 24 + 2, 1⟩ ⟨exP + 24, 4⟩).isOk = true := by
  decide +kernel

-- insert 2 bytes before `llo`
example : Yields (exSt exB [1, 2]) exP exB
    (strbuf_insert_before_strview isoCfg (exSt exB [1, 2]) (some exP) ⟨exP + 24 + 2, 3⟩ ⟨exQ, 2⟩)
    [104, 101, 1, 2, 108, 108, 111] 8 :=
  C35_insert_before isoCfg_ok (exSt_sane exB_valid _) (exSt_buf exB_valid _) (exSt_source exB_valid (by decide))
    (k := 2) (by decide) (by decide) (by decide) (.inr (.inl (by decide)))

/-- C36. `strbuf_assign` replaces the content by the bytes of the (valid) view as they were before the call. -/
theorem C36_assign {cfg : Cfg} (hcfg : cfg.Ok) {s : St} (hs : s.Sane) {p : Addr} {b : Buf} (hb : BufAt s p b)
    {v : View} {S : List Byte} (hv : Source s p b v S) (hpos : 0 < v.data) (hfit : b.Fits S.length) (hh : cfg.Handles b S.length) :
    Yields s p b (strbuf_assign cfg s (some p) v) S (b.capFor cfg S.length) := by
  have h := assign_yields hcfg hs hb hv hpos hh
  rwa [if_pos hfit] at h

/-- C36. Assigning an invalid view empties the buffer. -/
theorem C36_assign_invalid {cfg : Cfg} {s : St} (hs : s.Sane) {p : Addr} {b : Buf} (hb : BufAt s p b) {v : View} (hv : v.data = 0) :
    Yields s p b (strbuf_assign cfg s (some p) v) [] b.cap := assign_invalid hs hb hv

-- assign `llo` of `hello` to itself
example : Yields (exSt exB []) exP exB (strbuf_assign isoCfg (exSt exB []) (some exP) ⟨exP + 24 + (2 : Nat), (3 : Nat)⟩) [108, 108, 111] 8 :=
  C36_assign isoCfg_ok (exSt_sane exB_valid _) (exSt_buf exB_valid _) ((exSt_buf exB_valid _).partSource 2 3 (by decide))
    (by decide) (by decide) (.inr (.inl (by decide)))

-- assign 20 bytes from elsewhere, growing to 32
example : Yields (exSt exB (List.replicate 20 65)) exP exB
    (strbuf_assign isoCfg (exSt exB (List.replicate 20 65)) (some exP) ⟨exQ, (20 : Nat)⟩) (List.replicate 20 65) 32 :=
  C36_assign isoCfg_ok (exSt_sane exB_valid _) (exSt_buf exB_valid _) (exSt_source exB_valid (by decide))
    (by decide) (by decide) (.inr (.inr (.inl (by decide))))

example : (strbuf_assign isoCfg (exSt exB (List.replicate 20 65)) (some exP) ⟨exQ, 20⟩).isOk = true := by decide +kernel

end CStr
