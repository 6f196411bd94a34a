import Verif.Props.BufCat
/-! Properties C38, C39, C41, C42, C53: what happens when the result does not fit, and how the capacity develops. -/
namespace CStr

/-- What a `Yields` outcome with unchanged capacity means: the call returns normally, the buffer is at the same place, no byte outside its
storage has changed, the heap is the same and the allocator has not been called. -/
theorem Yields.inPlace {s : St} {p : Addr} {b : Buf} {r : BufRes} {data : List Byte} (h : Yields s p b r data b.cap) :
    ∃ s', r = .ok (⟨p + 24, data.length⟩, some p, s') ∧ BufAt s' p ⟨data, b.cap, b.al⟩ ∧
      (∀ a, ¬ InRange p (storage b.cap) a → s'.mem a = s.mem a) ∧
      s'.live = s.live ∧ s'.log = s.log ∧ s'.calls = s.calls := by
  rcases h with ⟨⟨h, _⟩, _⟩ | ⟨p', s', e, r⟩
  · exact absurd rfl h
  · obtain ⟨rfl, h2, h3, h4⟩ := r.same rfl
    exact ⟨s', e, r.buf, fun a ha => r.only.outside a ha ha, h2, h3, h4⟩

theorem capFor_fixed {b : Buf} (hd : ¬ b.Dynamic) (cfg : Cfg) (n : Nat) : b.capFor cfg n = b.cap := by
  rw [Buf.capFor, if_neg (fun h => hd h.1)]

theorem not_fits_fixed {b : Buf} (hd : ¬ b.Dynamic) {n : Nat} (hn : b.cap < n) : ¬ b.Fits n := by
  rintro (h | h)
  · omega
  · exact hd h.1

theorem Buf.over_fits {b : Buf} (hc : (b.cap : Int) ≤ INT_MAX) {n : Nat} (hn : INT_MAX < (n : Int)) : ¬ b.Fits n := by
  rintro (h | h)
  · omega
  · have := h.2; omega

theorem capFor_over {b : Buf} (cfg : Cfg) {n : Nat} (hn : INT_MAX < (n : Int)) : b.capFor cfg n = b.cap := by
  rw [Buf.capFor, if_neg (fun h => by have := h.2; omega)]

/-- The insertion family when the result does not fit: the buffer is emptied in place. -/
theorem insert_emptied {cfg : Cfg} (hcfg : cfg.Ok) {s : St} (hs : s.Sane) {p : Addr} {b : Buf} (hb : BufAt s p b)
    {v : View} {S : List Byte} (hv : Source s p b v S) {i : Int} (hi : INT_MIN ≤ i)
    (hnf : ¬ b.Fits (b.data.length + S.length)) (hcap : b.capFor cfg (b.data.length + S.length) = b.cap)
    (hh : cfg.Handles b (b.data.length + S.length)) :
    Yields s p b (strbuf_append_strview cfg s (some p) v) [] b.cap ∧
    Yields s p b (strbuf_prepend_strview cfg s (some p) v) [] b.cap ∧
    Yields s p b (strbuf_insert_at_index_strview cfg s (some p) i v) [] b.cap ∧
    (∀ dst : View, p + 24 ≤ dst.data → dst.data ≤ p + 24 + b.data.length →
      Yields s p b (strbuf_insert_before_strview cfg s (some p) dst v) [] b.cap) ∧
    (∀ dst : View, dst.data ≠ 0 → p + 24 ≤ dst.data + dst.size → dst.data + dst.size ≤ p + 24 + b.data.length →
      Yields s p b (strbuf_insert_after_strview cfg s (some p) dst v) [] b.cap) := by
  have h : ∀ i, INT_MIN ≤ i → Yields s p b (insert_and_view cfg s p i v) [] b.cap := by
    intro i hi
    have h := insert_yields hcfg hs hb hv hi hh
    rwa [if_neg hnf, hcap] at h
  refine ⟨?_, ?_, ?_, ?_, ?_⟩
  · simp only [strbuf_append_strview, deref_some hb.pos, hb.getSize, Res.bind_ok]; exact h _ (intmin_nat _)
  · simp only [strbuf_prepend_strview, deref_some hb.pos]; exact h _ (by decide)
  · simp only [strbuf_insert_at_index_strview, deref_some hb.pos]; exact h _ hi
  · intro dst h1 h2
    simp only [strbuf_insert_before_strview, deref_some hb.pos, hb.getSize, Res.bind_ok]
    rw [if_pos (by simp only [cstrOf, hdrLen]; omega)]
    exact h _ (by simp only [INT_MIN, cstrOf, hdrLen]; omega)
  · intro dst h0 h1 h2
    have hv' : strview_is_valid dst = true := by simp only [strview_is_valid]; exact decide_eq_true h0
    simp only [strbuf_insert_after_strview, deref_some hb.pos, hv', if_true, hb.getSize, Res.bind_ok]
    rw [if_pos (by simp only [cstrOf, hdrLen]; omega)]
    exact h _ (by simp only [INT_MIN, cstrOf, hdrLen]; omega)

/-- C38. A fixed buffer that cannot hold the result of an insertion is emptied in place (see `Yields.inPlace`: nothing outside its
storage is written and no allocator is called). The result size must be representable, or signed arithmetic wrap. -/
theorem C38_fixed_insert {cfg : Cfg} (hcfg : cfg.Ok) {s : St} (hs : s.Sane) {p : Addr} {b : Buf} (hb : BufAt s p b) (hd : ¬ b.Dynamic)
    {v : View} {S : List Byte} (hv : Source s p b v S) {i : Int} (hi : INT_MIN ≤ i)
    (hbig : b.cap < b.data.length + S.length) (hrep : cfg.wrapv = true ∨ ((b.data.length + S.length : Nat) : Int) ≤ INT_MAX) :
    Yields s p b (strbuf_append_strview cfg s (some p) v) [] b.cap ∧
    Yields s p b (strbuf_prepend_strview cfg s (some p) v) [] b.cap ∧
    Yields s p b (strbuf_insert_at_index_strview cfg s (some p) i v) [] b.cap ∧
    (∀ dst : View, p + 24 ≤ dst.data → dst.data ≤ p + 24 + b.data.length →
      Yields s p b (strbuf_insert_before_strview cfg s (some p) dst v) [] b.cap) ∧
    (∀ dst : View, dst.data ≠ 0 → p + 24 ≤ dst.data + dst.size → dst.data + dst.size ≤ p + 24 + b.data.length →
      Yields s p b (strbuf_insert_after_strview cfg s (some p) dst v) [] b.cap) :=
  insert_emptied hcfg hs hb hv hi (not_fits_fixed hd hbig) (capFor_fixed hd cfg _) (by
    rcases hrep with h | h
    · exact .inl h
    · exact .inr (.inr (.inr ⟨hd, h⟩)))

/-- C38. The same for assignment, concatenation, a character and formatted output. -/
theorem C38_fixed_others {cfg : Cfg} (hcfg : cfg.Ok) {s : St} (hs : s.Sane) {p : Addr} {b : Buf} (hb : BufAt s p b) (hd : ¬ b.Dynamic) :
    (∀ (v : View) (S : List Byte), Source s p b v S → 0 < v.data → b.cap < S.length →
      Yields s p b (strbuf_assign cfg s (some p) v) [] b.cap) ∧
    (∀ args : List (View × List Byte), (∀ a ∈ args, Source s p b a.1 a.2) → b.cap < (args.map (·.2)).flatten.length →
      (cfg.wrapv = true ∨ ((args.map (·.2)).flatten.length : Int) ≤ INT_MAX) →
      Yields s p b (strbuf_cat cfg s (some p) (args.map (·.1))) [] b.cap) ∧
    (∀ c : Byte, b.data.length = b.cap → (cfg.wrapv = true ∨ (b.cap : Int) < INT_MAX) →
      Yields s p b (strbuf_append_char cfg s (some p) c) [] b.cap) ∧
    (∀ (fmt : Fmt) (l : List Byte), fmt.Gives s p (storage b.cap) l → (l.length : Int) ≤ INT_MAX →
      b.cap < b.data.length + l.length → (cfg.wrapv = true ∨ ((b.data.length + l.length : Nat) : Int) ≤ INT_MAX) →
      (cfg.wrapv = true ∨ (b.cap : Int) < INT_MAX) →
      Yields s p b (strbuf_append_printf cfg s (some p) fmt) [] b.cap) ∧
    (∀ t : List Byte, (t.length : Int) ≤ INT_MAX → b.cap < b.data.length + t.length →
      (cfg.wrapv = true ∨ ((b.data.length + t.length : Nat) : Int) ≤ INT_MAX) →
      YieldsVia s p b (strbuf_append_prnf cfg s (some p) t) [] b.cap) := by
  have hH : ∀ n : Nat, (cfg.wrapv = true ∨ (n : Int) ≤ INT_MAX) → cfg.Handles b n := by
    intro n h
    rcases h with h | h
    · exact .inl h
    · exact .inr (.inr (.inr ⟨hd, h⟩))
  have hlen := hb.len
  refine ⟨?_, ?_, ?_, ?_, ?_⟩
  · intro v S hv hpos hbig
    have h := assign_yields hcfg hs hb hv hpos (hH _ (.inr hv.max))
    rwa [if_neg (not_fits_fixed hd hbig), capFor_fixed hd] at h
  · intro args ha hbig hrep
    by_cases hal : ∃ a ∈ args, a.1.Into p b
    · exact C37_cat_self_fixed hcfg hs hb hd ha hal (hH _ hrep)
    · have h := cat_plain hcfg hs hb ha (fun a h1 h2 => hal ⟨a, h1, h2⟩) (hH _ hrep)
      rwa [total, if_neg (not_fits_fixed hd hbig), capFor_fixed hd] at h
  · intro c hfull hrep
    have h := append_char_out hcfg hs hb c (hH _ (by
      rcases hrep with h | h
      · exact .inl h
      · exact .inr (by omega)))
    rw [if_neg (not_fits_fixed hd (by omega)), capFor_fixed hd] at h
    simp only [strbuf_append_char, deref_some hb.pos]
    exact h.yields
  · intro fmt l hf hl hbig hrep hroom
    have h := append_printf_yields hcfg hs hb hf hl (hH _ hrep) (by
      rw [capFor_fixed hd]
      rcases hroom with h | h
      · exact .inl h
      · exact .inr (by omega))
    rwa [if_neg (not_fits_fixed hd hbig), capFor_fixed hd] at h
  · intro t ht hbig hrep
    obtain ⟨cap, _, h⟩ := append_prnf_yields hcfg hs hb ht (hH _ hrep)
    rw [if_neg (not_fits_fixed hd hbig)] at h
    rcases h with ⟨h, _⟩ | ⟨p', s', e, c⟩
    · exact absurd h hd
    · obtain ⟨_, e2, _⟩ := c.fixed hd
      subst e2
      exact .inr ⟨p', s', e, c⟩

-- `hello` in a fixed buffer of capacity 8 cannot take 5 more bytes
example : Yields (exSt exF [1, 2, 3, 4, 5]) exP exF
    (strbuf_append_strview isoCfg (exSt exF [1, 2, 3, 4, 5]) (some exP) ⟨exQ, 5⟩) [] 8 :=
  (C38_fixed_insert isoCfg_ok (exSt_sane exF_valid _) (exSt_buf exF_valid _) (by decide) (exSt_source exF_valid (by decide))
    (i := 0) (by decide) (by decide) (.inr (by decide))).1

-- nor the formatted output of 9 characters
example : YieldsVia (exSt exF []) exP exF (strbuf_append_prnf isoCfg (exSt exF []) (some exP) [49, 50, 51, 52, 53, 54, 55, 56, 57]) [] 8 :=
  (C38_fixed_others isoCfg_ok (exSt_sane exF_valid _) (exSt_buf exF_valid _) (by decide)).2.2.2.2 _ (by decide) (by decide) (.inr (by decide))

/-- C39. A dynamic buffer takes any result up to `INT_MAX` bytes, and is emptied (in place) by a longer one, given that signed
arithmetic wraps. -/
theorem C39_dynamic {cfg : Cfg} (hcfg : cfg.Ok) (hw : cfg.wrapv = true) {s : St} (hs : s.Sane) {p : Addr} {b : Buf} (hb : BufAt s p b)
    (hd : b.Dynamic) {v : View} {S : List Byte} (hv : Source s p b v S) {i : Int} (hi : INT_MIN ≤ i) (hi' : i ≤ INT_MAX) :
    (((b.data.length + S.length : Nat) : Int) ≤ INT_MAX →
      Yields s p b (strbuf_append_strview cfg s (some p) v) (b.data ++ S) (b.capFor cfg (b.data.length + S.length)) ∧
      Yields s p b (strbuf_prepend_strview cfg s (some p) v) (S ++ b.data) (b.capFor cfg (b.data.length + S.length)) ∧
      Yields s p b (strbuf_insert_at_index_strview cfg s (some p) i v)
        (b.data.take (insertPos b.data.length i) ++ S ++ b.data.drop (insertPos b.data.length i))
        (b.capFor cfg (b.data.length + S.length))) ∧
    (INT_MAX < ((b.data.length + S.length : Nat) : Int) →
      Yields s p b (strbuf_append_strview cfg s (some p) v) [] b.cap ∧
      Yields s p b (strbuf_prepend_strview cfg s (some p) v) [] b.cap ∧
      Yields s p b (strbuf_insert_at_index_strview cfg s (some p) i v) [] b.cap) ∧
    (0 < v.data → Yields s p b (strbuf_assign cfg s (some p) v) S (b.capFor cfg S.length)) := by
  refine ⟨?_, ?_, ?_⟩
  · intro h
    exact ⟨C33_append hcfg hs hb hv (.inr ⟨hd, h⟩) (.inl hw), C34_prepend hcfg hs hb hv (.inr ⟨hd, h⟩) (.inl hw),
      C34_insert hcfg hs hb hv hi hi' (.inr ⟨hd, h⟩) (.inl hw)⟩
  · intro h
    obtain ⟨h1, h2, h3, _⟩ := insert_emptied hcfg hs hb hv hi (Buf.over_fits hb.cap h) (capFor_over cfg h) (.inl hw)
    exact ⟨h1, h2, h3⟩
  · intro hpos
    exact C36_assign hcfg hs hb hv hpos (.inr ⟨hd, hv.max⟩) (.inl hw)

/-- C39. The same for concatenation. -/
theorem C39_dynamic_cat {cfg : Cfg} (hcfg : cfg.Ok) (hw : cfg.wrapv = true) {s : St} (hs : s.Sane) {p : Addr} {b : Buf} (hb : BufAt s p b)
    (hd : b.Dynamic) {args : List (View × List Byte)} (ha : ∀ a ∈ args, Source s p b a.1 a.2) :
    (((args.map (·.2)).flatten.length : Int) ≤ INT_MAX →
      YieldsVia s p b (strbuf_cat cfg s (some p) (args.map (·.1))) (args.map (·.2)).flatten
        (b.capFor cfg (args.map (·.2)).flatten.length)) ∧
    (INT_MAX < ((args.map (·.2)).flatten.length : Int) →
      Yields s p b (strbuf_cat cfg s (some p) (args.map (·.1))) [] b.cap) := by
  constructor
  · intro h
    exact C37_cat_dynamic hcfg hs hb hd ha h (.inl hw)
  · intro h
    have h' := cat_over hcfg hs hb (fun a h => (ha a h).toDenotes) (.inl hw) (fun h' => by simp only [total, Arg] at h'; omega) []
    rw [total, capFor_over cfg h] at h'
    simpa using h'

/-- C39. Deviation: the overflow tests themselves overflow. Under the rules of ISO C, where signed overflow is undefined, appending
content that makes the size exceed `INT_MAX` is undefined behaviour instead of emptying the buffer. -/
theorem C39_iso_deviation {cfg : Cfg} (hw : cfg.wrapv = false) {s : St} {p : Addr} {b : Buf} (hb : BufAt s p b)
    {v : View} {S : List Byte} (hv : Source s p b v S) (hbig : INT_MAX < ((b.data.length + S.length : Nat) : Int)) :
    strbuf_append_strview cfg s (some p) v = .ub .signedOverflow := by
  simp only [strbuf_append_strview, deref_some hb.pos, hb.getSize, Res.bind_ok, insert_and_view, insert_strview_into_buf,
    contains_eq hb]
  rw [insert_index_eq cfg hb.sizeMax (intmin_nat _), Res.bind_ok, hv.size, add_ovf_iso hw (by omega)]
  rfl

-- `hello` and a view of INT_MAX bytes
example : strbuf_append_strview isoCfg (exSt exB (List.replicate 2147483647 65)) (some exP) ⟨exQ, (List.replicate 2147483647 (65 : Byte)).length⟩ =
    .ub .signedOverflow :=
  C39_iso_deviation rfl (exSt_buf exB_valid _) (exSt_source exB_valid (by rw [List.length_replicate]; decide))
    (by rw [List.length_replicate]; decide)

example : Yields (exSt exB (List.replicate 2147483647 65)) exP exB
    (strbuf_append_strview exCfg (exSt exB (List.replicate 2147483647 65)) (some exP) ⟨exQ, (List.replicate 2147483647 (65 : Byte)).length⟩)
    [] 8 :=
  ((C39_dynamic exCfg_ok rfl (exSt_sane exB_valid _) (exSt_buf exB_valid _) (by decide)
    (exSt_source exB_valid (by rw [List.length_replicate]; decide)) (i := 0) (by decide) (by decide)).2.1
    (by rw [List.length_replicate]; decide)).1

/-! C41 -/

/-- C41. A dynamic buffer: appending characters one at a time makes the content `old ++ characters`. -/
theorem C41_append_chars {cfg : Cfg} (hcfg : cfg.Ok) (t : List Byte) : ∀ {s : St} (_ : s.Sane) {p : Addr} {b : Buf} (_ : BufAt s p b)
    (_ : b.Fits (b.data.length + t.length)) (_ : cfg.Handles b (b.data.length + t.length)),
    (b.Dynamic ∧ append_chars cfg t (some p) s = .env .alloc) ∨
    ∃ p' s', append_chars cfg t (some p) s = .ok (some p', s') ∧
      Changed s p b (b.data ++ t) (b.capFor cfg (b.data.length + t.length)) p' s' := by
  induction t with
  | nil =>
    intro s hs p b hb _ _
    have h := (ReszOk.refl hs hb).toResult.changed (fun _ => rfl)
    rw [List.append_nil, List.length_nil, Nat.add_zero, capFor_same hb.len]
    exact .inr ⟨p, s, rfl, h⟩
  | cons c t ih =>
    intro s hs p b hb hfit hh
    have hmax : ((b.data.length + (c :: t).length : Nat) : Int) ≤ INT_MAX := by
      have := hb.cap
      rcases hfit with h | h
      · omega
      · exact h.2
    have hfit1 : b.Fits (b.data.length + 1) := by
      simp only [List.length_cons] at hfit hmax
      rcases hfit with h | h
      · exact .inl (by omega)
      · exact .inr ⟨h.1, by omega⟩
    have hfix : ¬ b.Dynamic → b.capFor cfg (b.data.length + 1) = b.cap := fun hd => capFor_fixed hd cfg _
    have h1 := (append_char_out hcfg hs hb c (hh.mono (by simp only [List.length_cons]; omega) (Nat.le_refl _) rfl)).yields
    rw [if_pos hfit1] at h1
    have e0 : strbuf_append_char cfg s (some p) c = (do
        let (p', s') ← append_char_to_buf cfg s p c
        let v ← strview_of_buf s'.mem p'
        .ok (v, some p', s')) := by
      simp only [strbuf_append_char, deref_some hb.pos]
    rw [← e0] at h1
    simp only [append_chars]
    rcases h1 with ⟨hne, he⟩ | ⟨p1, s1, e1, r1⟩
    · left
      refine ⟨Decidable.byContradiction fun hd => hne.1 (hfix hd), ?_⟩
      rw [he]; rfl
    · rw [e1, Res.bind_ok]
      have hcl := cap_le_capFor hcfg (b := b) (b.data.length + 1)
      have el : (b.data ++ [c]).length + t.length = b.data.length + (c :: t).length := by
        simp only [List.length_append, List.length_cons, List.length_nil]; omega
      have hf2 : (⟨b.data ++ [c], b.capFor cfg (b.data.length + 1), b.al⟩ : Buf).Fits ((b.data ++ [c]).length + t.length) := by
        rw [el]
        exact (Fits_capFor hcfg hb.cap _ _ _).2 hfit
      rcases ih r1.sane r1.buf hf2 (hh.mono (by simp only [List.length_append, List.length_cons, List.length_nil]; omega) hcl rfl)
        with h2 | ⟨p2, s2, e2, c2⟩
      · exact .inl h2
      · right
        simp only [el] at c2
        rw [capFor_capFor hcfg _ (by simp only [List.length_cons]; omega) hmax] at c2
        refine ⟨p2, s2, e2, ?_⟩
        have := (r1.changed hfix).trans c2
        simpa using this

/-- C41. A fixed buffer, any characters: each character is appended if there is room, and otherwise empties the buffer. -/
theorem C41_append_chars_fixed {cfg : Cfg} (hcfg : cfg.Ok) (t : List Byte) : ∀ {s : St} (_ : s.Sane) {p : Addr} {b : Buf} (_ : BufAt s p b)
    (_ : ¬ b.Dynamic) (_ : cfg.wrapv = true ∨ (b.cap : Int) < INT_MAX),
    ∃ s', append_chars cfg t (some p) s = .ok (some p, s') ∧
      Result s p b (t.foldl (fun d c => if d.length < b.cap then d ++ [c] else []) b.data) b.cap p s' := by
  induction t with
  | nil =>
    intro s hs p b hb _ _
    exact ⟨s, rfl, (ReszOk.refl hs hb).toResult⟩
  | cons c t ih =>
    intro s hs p b hb hd hw
    have hlen := hb.len
    have h1 := (append_char_out hcfg hs hb c (by
      rcases hw with h | h
      · exact .inl h
      · exact .inr (.inr (.inr ⟨hd, by omega⟩)))).yields
    have e0 : strbuf_append_char cfg s (some p) c = (do
        let (p', s') ← append_char_to_buf cfg s p c
        let v ← strview_of_buf s'.mem p'
        .ok (v, some p', s')) := by
      simp only [strbuf_append_char, deref_some hb.pos]
    rw [← e0, capFor_fixed hd] at h1
    have ed : (if b.Fits (b.data.length + 1) then b.data ++ [c] else []) = (if b.data.length < b.cap then b.data ++ [c] else []) := by
      by_cases h : b.data.length < b.cap
      · rw [if_pos h, if_pos (.inl h)]
      · rw [if_neg h, if_neg (not_fits_fixed hd (by omega))]
    rw [ed] at h1
    rcases h1 with ⟨hne, _⟩ | ⟨p1, s1, e1, r1⟩
    · exact absurd rfl hne.1
    · obtain rfl : p1 = p := (r1.same rfl).1
      obtain ⟨s2, e2, r2⟩ := ih r1.sane r1.buf hd hw
      refine ⟨s2, ?_, ?_⟩
      · simp only [append_chars, e1, Res.bind_ok]; exact e2
      · rw [List.foldl_cons]
        exact r1.andSame r2

-- four more characters for `hello` in a dynamic buffer; in a fixed buffer of capacity 8 the fourth one empties it
example : ∃ p' s', append_chars isoCfg [1, 2, 3, 4] (some exP) (exSt exB []) = .ok (some p', s') ∧
    Changed (exSt exB []) exP exB [104, 101, 108, 108, 111, 1, 2, 3, 4] 16 p' s' := by
  rcases C41_append_chars isoCfg_ok [1, 2, 3, 4] (exSt_sane exB_valid []) (exSt_buf exB_valid _) (by decide)
    (.inr (.inr (.inl (by decide)))) with ⟨_, h⟩ | h
  · have : (append_chars isoCfg [1, 2, 3, 4] (some exP) (exSt exB [])).isOk = true := by decide +kernel
    rw [h] at this; cases this
  · exact h

example : ∃ s', append_chars isoCfg [1, 2, 3, 4] (some exP) (exSt exF []) = .ok (some exP, s') ∧
    Result (exSt exF []) exP exF [] 8 exP s' :=
  C41_append_chars_fixed isoCfg_ok [1, 2, 3, 4] (exSt_sane exF_valid []) (exSt_buf exF_valid _) (by decide) (.inr (by decide))

/-! C42 -/

/-- C42. `strbuf_shrink`: the content stays, the capacity of a dynamic buffer becomes its size, a fixed buffer does not change. -/
theorem C42_shrink {s : St} (hs : s.Sane) {p : Addr} {b : Buf} (hb : BufAt s p b) :
    (b.Dynamic → Yields s p b (strbuf_shrink s (some p)) b.data b.data.length) ∧
    (¬ b.Dynamic → strbuf_shrink s (some p) = .ok (⟨p + 24, b.data.length⟩, some p, s)) := by
  constructor
  · intro hd
    have h := shrink_yields hs hb
    rwa [if_pos hd] at h
  · intro hd
    have hd' : ¬ b.al.fn ≠ 0 := hd
    simp only [strbuf_shrink, deref_some hb.pos, hb.is_dynamic, Res.bind_ok, decide_eq_false hd', Bool.false_eq_true, if_false, hb.view]

/-- C42. `strbuf_grow`: the content stays, the capacity of a dynamic buffer becomes at least the requested size, exactly the larger of the
two. -/
theorem C42_grow {s : St} (hs : s.Sane) {p : Addr} {b : Buf} (hb : BufAt s p b) (hd : b.Dynamic) {n : Int} (hn : n ≤ INT_MAX) :
    Yields s p b (strbuf_grow s (some p) n) b.data (max b.cap n.toNat) :=
  grow_yields hs hb hd hn

/-- C42. `strbuf_grow` on a fixed buffer returns an invalid view and changes nothing (whatever the size asked for). -/
theorem C42_grow_fixed {s : St} {p : Addr} {b : Buf} (hb : BufAt s p b) (hd : ¬ b.Dynamic) (n : Int) :
    strbuf_grow s (some p) n = .ok (.invalid, some p, s) :=
  grow_fixed hb hd n

example : Yields (exSt exB []) exP exB (strbuf_shrink (exSt exB []) (some exP)) [104, 101, 108, 108, 111] 5 :=
  (C42_shrink (exSt_sane exB_valid []) (exSt_buf exB_valid _)).1 (by decide)

example : Yields (exSt exB []) exP exB (strbuf_grow (exSt exB []) (some exP) 100) [104, 101, 108, 108, 111] 100 :=
  C42_grow (exSt_sane exB_valid []) (exSt_buf exB_valid _) (by decide) (by decide)

example : (strbuf_shrink (exSt exB []) (some exP)).isOk = true ∧ (strbuf_grow (exSt exB []) (some exP) 100).isOk = true := by
  decide +kernel

example : strbuf_grow (exSt exF []) (some exP) 100 = .ok (.invalid, some exP, exSt exF []) :=
  C42_grow_fixed (exSt_buf exF_valid _) (by decide) 100

/-! C53 -/

/-- C53. The capacity `capFor` that the theorems above give for operations that add content: never less than before; the same if the
result fits; otherwise at least the size of the result, less than one step more, and a multiple of the grow step or `INT_MAX`. -/
theorem C53_capacity {cfg : Cfg} (hcfg : cfg.Ok) {b : Buf} (n : Nat) :
    b.cap ≤ b.capFor cfg n ∧
    (n ≤ b.cap → b.capFor cfg n = b.cap) ∧
    (b.cap < n → b.Dynamic → (n : Int) ≤ INT_MAX →
      n ≤ b.capFor cfg n ∧ (b.capFor cfg n : Int) < n + cfg.growStep ∧
      ((b.capFor cfg n : Int) % cfg.growStep = 0 ∨ (b.capFor cfg n : Int) = INT_MAX)) := by
  refine ⟨cap_le_capFor hcfg n, fun h => capFor_same h, fun h1 h2 h3 => ?_⟩
  have hpos := hcfg.pos
  have hstep : 0 < cfg.growStep.toNat := by omega
  have hg : (cfg.growStep.toNat : Int) = cfg.growStep := by omega
  rw [Buf.capFor, if_pos ⟨h2, h3⟩, grownCap, if_neg (by omega)]
  have hc1 : n ≤ (n + cfg.growStep.toNat - 1) / cfg.growStep.toNat * cfg.growStep.toNat := by
    have h := Nat.div_add_mod (n + cfg.growStep.toNat - 1) cfg.growStep.toNat
    have h' := Nat.mod_lt (n + cfg.growStep.toNat - 1) hstep
    rw [Nat.mul_comm] at h; omega
  have hc2 : (n + cfg.growStep.toNat - 1) / cfg.growStep.toNat * cfg.growStep.toNat < n + cfg.growStep.toNat := by
    have h := Nat.div_mul_le_self (n + cfg.growStep.toNat - 1) cfg.growStep.toNat
    omega
  split
  · refine ⟨hc1, by omega, .inl ?_⟩
    rw [Int.natCast_mul, hg]
    exact Int.mul_emod_left _ _
  · refine ⟨by simp only [INT_MAX] at h3; omega, by omega, .inr rfl⟩

/-- C53. An appending operation whose result fits the present capacity makes no call of the allocator; if it does not fit, there is exactly
one call, which resizes the buffer's block. (Shown for `strbuf_append`; every `Yields … (capFor …)` theorem gives the same.) -/
theorem C53_calls {cfg : Cfg} (hcfg : cfg.Ok) {s : St} (hs : s.Sane) {p : Addr} {b : Buf} (hb : BufAt s p b)
    {v : View} {S : List Byte} (hv : Source s p b v S) (hfit : b.Fits (b.data.length + S.length))
    (hh : cfg.Handles b (b.data.length + S.length)) :
    (b.data.length + S.length ≤ b.cap →
      ∃ w s', strbuf_append_strview cfg s (some p) v = .ok (w, some p, s') ∧ s'.log = s.log ∧ s'.calls = s.calls ∧ s'.live = s.live) ∧
    (b.cap < b.data.length + S.length →
      strbuf_append_strview cfg s (some p) v = .env .alloc ∨
      ∃ w p' s' cap, strbuf_append_strview cfg s (some p) v = .ok (w, some p', s') ∧
        cap = b.capFor cfg (b.data.length + S.length) ∧ s'.log = ⟨b.al, p, storage cap, p'⟩ :: s.log) := by
  have h := C33_append hcfg hs hb hv hfit hh
  constructor
  · intro hle
    rw [capFor_same hle] at h
    obtain ⟨s', e, _, _, h1, h2, h3⟩ := h.inPlace
    exact ⟨_, s', e, h2, h3, h1⟩
  · intro hgt
    rcases h with ⟨_, h⟩ | ⟨p', s', e, r⟩
    · exact .inl h
    · right
      refine ⟨_, p', s', _, e, rfl, r.log ?_⟩
      intro heq
      have hmax : ((b.data.length + S.length : Nat) : Int) ≤ INT_MAX := by
        have := hb.cap
        rcases hfit with h | h
        · omega
        · exact h.2
      have := (capFor_fits hcfg hmax).2 hfit
      omega

example : exB.capFor isoCfg 10 = 16 ∧ exB.capFor isoCfg 8 = 8 ∧ exB.capFor isoCfg 2147483640 = 2147483647 := by decide

end CStr
