import Verif.Props.BufText
/-! Properties C43, C44, C48, C49: creation, release and conversion of buffers. -/
namespace CStr

/-! C48 -/

/-- C48. Given aligned memory of `n` bytes, more than the header, `strbuf_create_fixed` makes an empty buffer there whose header, capacity and
terminator take exactly these `n` bytes (unless the capacity reaches `INT_MAX`). Only the header and the terminator are written. -/
theorem C48_create_fixed {s : St} {p : Addr} {n : Nat} (hp : 0 < p) (ha : p % 8 = 0) (hn : 24 < n) (htop : p + n ≤ litBase)
    (hmem : ∀ i : Nat, i < n → (s.mem (p + i)).isSome) :
    ∃ m' cap, strbuf_create_fixed s.mem p n = .ok (p, m') ∧
      BufAt { s with mem := m' } p ⟨[], cap, ⟨0, 0⟩⟩ ∧
      (storage cap = n ∨ ((cap : Int) = INT_MAX ∧ storage cap ≤ n)) ∧
      ∀ a, ¬ InRange p 25 a → m' a = s.mem a := by
  obtain ⟨m', e, hb, hw⟩ := create_fixed_ok (s := s) hp ha hn (fun i hi => ⟨by omega, by omega, hmem i hi⟩)
  refine ⟨m', _, e, hb, ?_, hw⟩
  by_cases h : n - 25 ≤ 2147483647
  · left; simp only [storage]; omega
  · right; simp only [storage, INT_MAX]; omega

/-- C48. In all other cases `strbuf_create_fixed` returns NULL and writes nothing. -/
theorem C48_create_fixed_null (m : Mem) (p : Addr) (n : Nat) (h : n ≤ 24 ∨ p = 0 ∨ p % 8 ≠ 0) :
    strbuf_create_fixed m p n = .ok (0, m) := by
  rw [strbuf_create_fixed]
  by_cases h1 : n > hdrLen ∧ p ≠ 0
  · rw [if_pos h1]
    simp only
    rw [if_neg]
    intro h2
    simp only [hdrLen] at h1
    rcases h with h | h | h
    · omega
    · exact h1.2 h
    · exact h h2
  · rw [if_neg h1]

/-- C48. A variable initialised with `STRBUF_STATIC_INIT(cap)`, or made by `STRBUF_FIXED_CAP(cap)`, is an empty fixed buffer of that
capacity. -/
theorem C48_static_init {s : St} {p : Addr} {cap : Nat} (hp : 0 < p) (ha : p % 8 = 0) (hcap : (cap : Int) ≤ INT_MAX)
    (htop : p + storage cap ≤ litBase) (hh : Holds s.mem p (fixedInit cap)) :
    BufAt s p ⟨[], cap, ⟨0, 0⟩⟩ := by
  have hlen : (fixedInit cap).length = storage cap := by
    simp only [fixedInit, List.length_append, leBytes_length, List.length_replicate, storage]; omega
  refine ⟨hp, ha, htop, by simp, hcap, by simp only; omega, by simp only; omega, ?_, ?_, fun h => absurd rfl h⟩
  · rw [fixedInit, List.replicate_succ, show ∀ X : List Byte, (0 : Byte) :: X = [0] ++ X from fun _ => rfl,
      ← List.append_assoc, Holds.append_iff] at hh
    rw [List.append_nil]
    exact hh.1
  · intro i hi
    have h := hh i (by rw [hlen]; exact hi)
    simp only at hi
    simp only [rd] at h
    rw [if_neg (by omega), if_neg (by omega)] at h
    rw [h]; rfl

-- 33 bytes become a buffer of capacity 8; 24 bytes are too few; an odd address is refused
example : ∃ m' cap, strbuf_create_fixed (exSt exF []).mem exP 33 = .ok (exP, m') ∧
    BufAt { exSt exF [] with mem := m' } exP ⟨[], cap, ⟨0, 0⟩⟩ ∧ (storage cap = 33 ∨ ((cap : Int) = INT_MAX ∧ storage cap ≤ 33)) ∧
    ∀ a, ¬ InRange exP 25 a → m' a = (exSt exF []).mem a :=
  C48_create_fixed (by decide) (by decide) (by decide) (by decide) (exSt_buf exF_valid []).mapped

example : strbuf_create_fixed (exSt exF []).mem exP 24 = .ok (0, (exSt exF []).mem) := C48_create_fixed_null _ _ _ (.inl (by decide))

example : strbuf_create_fixed (exSt exF []).mem (exP + 1) 32 = .ok (0, (exSt exF []).mem) :=
  C48_create_fixed_null _ _ _ (.inr (.inr (by decide)))

example : BufAt ⟨memAt exP (fixedInit 4), fun _ => none, fun _ => ⟨0, fun _ => 0⟩, 0, [], []⟩ exP ⟨[], 4, ⟨0, 0⟩⟩ :=
  C48_static_init (by decide) (by decide) (by decide) (by decide) (holds_memAt _ _ (by decide) (by decide))

/-! C49 -/

/-- C49. `strbuf_create(n, allocator)` returns an empty buffer of capacity `n` that belongs to the allocator given, or to the default one
if none is given; nothing else changes. -/
theorem C49_create_empty {dflt : Alloc} {s : St} (hs : s.Sane) {o : Option Alloc} (hal : (pickAlloc dflt o).Ok)
    {n : Nat} (hn : (n : Int) ≤ INT_MAX) :
    (BadAnswer s 0 0 (storage n) ∧ strbuf_create_empty dflt s n o = .env .alloc) ∨
      ∃ p s', strbuf_create_empty dflt s n o = .ok (p, s') ∧ Created s s' p ⟨[], n, pickAlloc dflt o⟩ := by
  rw [strbuf_create_empty]
  rw [if_pos ⟨hal.some, hn⟩]
  exact create_ok hs hal hn

/-- C49. `strbuf_create(v, allocator)` returns a buffer with the bytes of `v`. -/
theorem C49_create_init {cfg : Cfg} (hcfg : cfg.Ok) {dflt : Alloc} {s : St} (hs : s.Sane) {o : Option Alloc}
    (hal : (pickAlloc dflt o).Ok) {v : View} {S : List Byte} (hv : Denotes s.mem v S) :
    (BadAnswer s 0 0 (storage S.length) ∧ strbuf_create_init cfg dflt s v o = .env .alloc) ∨
      ∃ p s', strbuf_create_init cfg dflt s v o = .ok (p, s') ∧ Created s s' p ⟨S, S.length, pickAlloc dflt o⟩ :=
  create_init_ok hcfg hs hal hv

/-- C49. Without an allocator function, or with a capacity above `INT_MAX`, NULL is returned and nothing happens. -/
theorem C49_create_null {cfg : Cfg} {dflt : Alloc} {s : St} {o : Option Alloc} :
    ((pickAlloc dflt o).fn = 0 → ∀ v, strbuf_create_init cfg dflt s v o = .ok (0, s)) ∧
    (∀ n : Nat, (pickAlloc dflt o).fn = 0 ∨ INT_MAX < (n : Int) → strbuf_create_empty dflt s n o = .ok (0, s)) := by
  constructor
  · intro h v
    rw [strbuf_create_init]
    rw [if_neg (by simpa using h)]
  · intro n h
    rw [strbuf_create_empty]
    rw [if_neg (by intro h'; rcases h with h | h; exact h'.1 h; omega)]

/-- C49. Deviation: the answer of the allocator is not checked. When it returns NULL, creating a buffer is undefined behaviour (access to a
member through NULL) instead of returning NULL. strbuf.h line 211 leaves it to the allocator to "catch a failed allocation". -/
theorem C49_alloc_failure_deviation {cfg : Cfg} {dflt : Alloc} {s : St} {o : Option Alloc} (hal : (pickAlloc dflt o).fn ≠ 0)
    (hfail : (s.picks s.calls).addr = 0) {n : Nat} (hn : (n : Int) ≤ INT_MAX) {v : View} {S : List Byte} (hv : Denotes s.mem v S) :
    strbuf_create_empty dflt s n o = .ub .badHeader ∧ strbuf_create_init cfg dflt s v o = .ub .badHeader := by
  have h : ∀ n : Nat, (n : Int) ≤ INT_MAX → create_buf s n (pickAlloc dflt o) = .ub .badHeader := by
    intro n hn
    simp only [INT_MAX] at hn
    obtain ⟨k, hk⟩ : ∃ k, k = (hdrLen + sizeT (n : Int) + 1) % 18446744073709551616 := ⟨_, rfl⟩
    have hk0 : k ≠ 0 := by
      rw [hk, sizeT_nat]; simp only [hdrLen]; omega
    have e : allocCall s (pickAlloc dflt o) 0 k = .ok (0, { s with calls := s.calls + 1, log := ⟨pickAlloc dflt o, 0, k, 0⟩ :: s.log, moments := ⟨s.mem, s.live, k⟩ :: s.moments }) := by
      simp only [allocCall]
      rw [if_neg hal]
      simp only [if_true]
      rw [if_neg hk0, if_pos hfail]
    rw [create_buf, ← hk, e, Res.bind_ok]
    rfl
  constructor
  · rw [strbuf_create_empty]
    rw [if_pos ⟨hal, hn⟩, h n hn]
  · rw [strbuf_create_init]
    rw [if_pos hal, hv.size, h _ hv.max]
    rfl

example : ∃ p s', strbuf_create_empty ⟨0, 0⟩ (exSt exF []) 100 (some ⟨7, 9⟩) = .ok (p, s') ∧
    Created (exSt exF []) s' p ⟨[], 100, ⟨7, 9⟩⟩ := by
  rcases C49_create_empty (dflt := ⟨0, 0⟩) (o := some ⟨7, 9⟩) (n := 100) (exSt_sane exF_valid []) ⟨by decide, by decide, by decide⟩
    (by decide) with ⟨_, h⟩ | h
  · have h' : (strbuf_create_empty ⟨0, 0⟩ (exSt exF []) 100 (some ⟨7, 9⟩)).isOk = true := by decide +kernel
    rw [h] at h'; cases h'
  · exact h

example : ∃ p s', strbuf_create_init isoCfg ⟨0, 5⟩ (exSt exF [1, 2, 3]) ⟨exQ, 3⟩ none = .ok (p, s') ∧
    Created (exSt exF [1, 2, 3]) s' p ⟨[1, 2, 3], 3, ⟨0, 5⟩⟩ := by
  rcases C49_create_init isoCfg_ok (dflt := ⟨0, 5⟩) (o := none) (exSt_sane exF_valid [1, 2, 3]) ⟨by decide, by decide, by decide⟩
    (exSt_other (l := [1, 2, 3]) (by decide)) with ⟨_, h⟩ | h
  · have h' : (strbuf_create_init isoCfg ⟨0, 5⟩ (exSt exF [1, 2, 3]) ⟨exQ, 3⟩ none).isOk = true := by decide +kernel
    rw [show (([1, 2, 3] : List Byte).length : Int) = 3 from rfl] at h
    rw [h] at h'; cases h'
  · exact h

example : strbuf_create_empty ⟨0, 0⟩ { exSt exF [] with picks := fun _ => ⟨0, fun _ => 0⟩ } 10 (some ⟨0, 1⟩) = .ub .badHeader :=
  (C49_alloc_failure_deviation (cfg := isoCfg) (S := []) (v := .invalid) (by decide) rfl (by decide)
    ⟨rfl, by decide, Holds.nil _ _⟩).1

/-- C53. Deviation: strbuf.h lines 118-120 say that the capacity is rounded up to a multiple of the grow step when a buffer is created with
`strbuf_create` and when it is expanded "for any reason". `strbuf_create` and `strbuf_grow` take the number exactly as given. -/
theorem C53_rounding_deviation :
    (∃ p s', strbuf_create_empty ⟨0, 1⟩ (exSt exF []) 100 none = .ok (p, s') ∧ getCap s'.mem p = .ok 100) ∧
    (∃ v p s', strbuf_grow (exSt exB []) (some exP) 100 = .ok (v, some p, s') ∧ getCap s'.mem p = .ok 100) ∧
    isoCfg.growStep = 16 ∧ ¬ (16 : Int) ∣ 100 := by
  refine ⟨?_, ?_, rfl, by decide⟩
  · rcases C49_create_empty (dflt := ⟨0, 1⟩) (o := none) (n := 100) (exSt_sane exF_valid []) ⟨by decide, by decide, by decide⟩
      (by decide) with ⟨_, h⟩ | ⟨p, s', h, c⟩
    · have h' : (strbuf_create_empty ⟨0, 1⟩ (exSt exF []) 100 none).isOk = true := by decide +kernel
      rw [h] at h'; cases h'
    · exact ⟨p, s', h, c.buf.getCap⟩
  · rcases C42_grow (exSt_sane exB_valid []) (exSt_buf exB_valid []) (by decide) (n := 100) (by decide) with ⟨_, h⟩ | ⟨p, s', h, c⟩
    · have h' : (strbuf_grow (exSt exB []) (some exP) 100).isOk = true := by decide +kernel
      rw [h] at h'; cases h'
    · exact ⟨_, p, s', h, c.buf.getCap⟩

/-! C43: one call; C43 for histories is in Props/BufHist.lean. -/

/-- C43. `strbuf_destroy` releases the buffer's storage with one call of the buffer's own allocator, changes nothing else, and the caller's
pointer becomes NULL. A fixed buffer is left alone. -/
theorem C43_destroy {s : St} (hs : s.Sane) {p : Addr} {b : Buf} (hb : BufAt s p b) :
    (b.Dynamic → ∃ s', strbuf_destroy s (some p) = .ok (some 0, s') ∧ OnlyFreed s s' p (storage b.cap) ∧ s'.Sane ∧
      s'.log = ⟨b.al, p, 0, 0⟩ :: s.log) ∧
    (¬ b.Dynamic → strbuf_destroy s (some p) = .ok (some 0, s)) := by
  have hp : p ≠ 0 := by have := hb.pos; omega
  constructor
  · intro hd
    obtain ⟨s', e, h⟩ := destroy_ok hs hb hd
    refine ⟨s', ?_, h⟩
    rw [strbuf_destroy]
    rw [if_pos hp, hb.is_dynamic, Res.bind_ok, decide_eq_true (show b.al.fn ≠ 0 from hd), if_pos rfl, e, Res.bind_ok]
  · intro hd
    rw [strbuf_destroy]
    rw [if_pos hp, hb.is_dynamic, Res.bind_ok, decide_eq_false (show ¬ b.al.fn ≠ 0 from hd), if_neg Bool.false_ne_true]

/-- C43. Destroying twice through the same pointer releases once: the second call does nothing. -/
theorem C43_destroy_twice {s : St} (hs : s.Sane) {p : Addr} {b : Buf} (hb : BufAt s p b) (hd : b.Dynamic) :
    ∃ s', (do let (bp, s1) ← strbuf_destroy s (some p); strbuf_destroy s1 bp) = .ok (some 0, s') ∧
      s'.log = ⟨b.al, p, 0, 0⟩ :: s.log := by
  obtain ⟨s', e, _, _, h⟩ := (C43_destroy hs hb).1 hd
  refine ⟨s', ?_, h⟩
  rw [e, Res.bind_ok]
  rfl

example : ∃ s', strbuf_destroy (exSt exB []) (some exP) = .ok (some 0, s') ∧ OnlyFreed (exSt exB []) s' exP 33 ∧ s'.Sane ∧
    s'.log = [⟨⟨0, 1⟩, exP, 0, 0⟩] :=
  (C43_destroy (exSt_sane exB_valid []) (exSt_buf exB_valid _)).1 (by decide)

/-! C44 -/

/-- C44. `strbuf_to_cstr` on a dynamic buffer: returns a block of exactly `size + 1` bytes with the content and a NUL, obtained by one resize of the
buffer's block; the caller's pointer becomes NULL, nothing else changes, and the allocator can release the block. -/
theorem C44_to_cstr {cfg : Cfg} {s : St} (hs : s.Sane) {p : Addr} {b : Buf} (hb : BufAt s p b) (hd : b.Dynamic)
    (hh : (b.data.length : Int) < INT_MAX) :
    (BadAnswer s p (storage b.cap) (b.data.length + 1) ∧ strbuf_to_cstr cfg s (some p) = .env .alloc) ∨
      ∃ q s', strbuf_to_cstr cfg s (some p) = .ok (q, some 0, s') ∧ Holds s'.mem q (b.data ++ [0]) ∧ 0 < q ∧
        s'.live q = some ⟨b.data.length + 1, b.al⟩ ∧ s'.Sane ∧
        OnlyBlock s s' p (storage b.cap) q (b.data.length + 1) ∧
        s'.log = ⟨b.al, p, b.data.length + 1, q⟩ :: s.log ∧
        ∃ s2, allocCall s' b.al q 0 = .ok (0, s2) ∧ s2.live q = none := by
  rcases to_cstr_dynamic (cfg := cfg) hs hb hd hh with h | ⟨q, s', h1, h2, h3, h4, h5, h6, h7⟩
  · exact .inl h
  · obtain ⟨s2, e2, r2⟩ := allocCall_free h5 hd h4
    refine .inr ⟨q, s', h1, h2, h3, h4, h5, h6, h7, s2, e2, ?_⟩
    rw [r2.live]; exact if_pos rfl

/-- C44. If the content has no NUL byte, the result is a C string equal to it. -/
theorem C44_to_cstr_string {cfg : Cfg} {s : St} (hs : s.Sane) {p : Addr} {b : Buf} (hb : BufAt s p b)
    (hd : b.Dynamic → (b.data.length : Int) < INT_MAX) (h0 : (0 : Byte) ∉ b.data) :
    (b.Dynamic ∧ strbuf_to_cstr cfg s (some p) = .env .alloc) ∨
      ∃ q s', strbuf_to_cstr cfg s (some p) = .ok (q, some 0, s') ∧ CString s'.mem q b.data := by
  have hmax := hb.sizeMax
  by_cases hdy : b.Dynamic
  · rcases C44_to_cstr (cfg := cfg) hs hb hdy (hd hdy) with h | ⟨q, s', h1, h2, h3, _⟩
    · exact .inl ⟨hdy, h.2⟩
    · exact .inr ⟨q, s', h1, by omega, hmax, h0, h2⟩
  · have hp := hb.pos
    refine .inr ⟨p + 24, s, to_cstr_fixed hb hdy, by omega, hmax, h0, ?_⟩
    have h := hb.holds
    rw [List.append_assoc, Holds.append_iff, hdrBytes_length] at h
    exact h.2

/-- C44. On a fixed buffer: the address of the content, which is terminated; nothing changes but the caller's pointer. -/
theorem C44_to_cstr_fixed {cfg : Cfg} {s : St} {p : Addr} {b : Buf} (hb : BufAt s p b) (hd : ¬ b.Dynamic) :
    strbuf_to_cstr cfg s (some p) = .ok (p + 24, some 0, s) ∧ Holds s.mem (p + 24) (b.data ++ [0]) := by
  refine ⟨to_cstr_fixed hb hd, ?_⟩
  have h := hb.holds
  rw [List.append_assoc, Holds.append_iff, hdrBytes_length] at h
  exact h.2

/-- C44. Deviation: for a content of `INT_MAX` bytes the size `size + 1` of the new block is computed with a signed overflow. -/
theorem C44_iso_deviation {cfg : Cfg} (hw : cfg.wrapv = false) {s : St} {p : Addr} {b : Buf} (hb : BufAt s p b) (hd : b.Dynamic)
    (hbig : (b.data.length : Int) = INT_MAX) :
    strbuf_to_cstr cfg s (some p) = .ub .signedOverflow := by
  obtain ⟨J, hJ, hr⟩ := hb.raw
  have hlen := hb.len
  have hsrc := (Holds.append_iff.1 hr.body).1
  have hwp : Writable s.mem p b.data.length := hr.writable.mono (by simp only [List.length_append]; omega)
  have hmv := memmove_eq hsrc hwp
  have hadd : addInt cfg b.data.length 1 = .ub .signedOverflow := addInt_iso hw (by omega)
  rw [strbuf_to_cstr, deref_some hb.pos]
  simp only
  rw [hb.getSize, Res.bind_ok, hb.is_dynamic, Res.bind_ok, decide_eq_true (show b.al.fn ≠ 0 from hd), if_pos rfl,
    hb.getAlloc, Res.bind_ok, sizeT_nat, hmv, Res.bind_ok, hadd]
  rfl

example : ∃ q s', strbuf_to_cstr isoCfg (exSt exB []) (some exP) = .ok (q, some 0, s') ∧
    CString s'.mem q [104, 101, 108, 108, 111] := by
  rcases C44_to_cstr_string (cfg := isoCfg) (exSt_sane exB_valid []) (exSt_buf exB_valid _) (by decide) (by decide) with ⟨_, h⟩ | h
  · have h' : (strbuf_to_cstr isoCfg (exSt exB []) (some exP)).isOk = true := by decide +kernel
    rw [h] at h'; cases h'
  · exact h

example : strbuf_to_cstr isoCfg (exSt ⟨List.replicate 2147483647 65, 2147483647, ⟨0, 1⟩⟩ []) (some exP) = .ub .signedOverflow :=
  C44_iso_deviation rfl (exSt_buf ⟨by rw [List.length_replicate]; exact Nat.le_refl _, by decide, by decide, by decide⟩ _) (by decide)
    (by rw [List.length_replicate]; decide)

end CStr
