import Verif.Props.Split
/-! Property C77: tokenising with `exclude_quotes`. -/
namespace CStr

theorem allQuoted_iff {ds t : List Byte} : AllQuoted ds t ↔ ∀ pre d post, ¬ SplitsFwd true ds t pre d post := by
  constructor
  · rintro h pre d post ⟨e, hd, h2⟩
    have := h pre d post e hd
    have := h2 rfl
    omega
  · intro h pre d post e hd
    have := h pre d post
    by_cases hc : (pre ++ [d]).count 34 % 2 = 0
    · exact absurd ⟨e, hd, fun _ => hc⟩ this
    · omega

theorem split_cases {α : Type} {a b c e : List α} {x y : α} (h : a ++ x :: b = c ++ y :: e) :
    (∃ f, c = a ++ x :: f ∧ b = f ++ y :: e) ∨ (a = c ∧ x = y ∧ b = e) ∨ (∃ f, a = c ++ y :: f ∧ e = f ++ x :: b) := by
  induction a generalizing c with
  | nil =>
    cases c with
    | nil =>
      simp only [List.nil_append, List.cons.injEq] at h
      exact .inr (.inl ⟨rfl, h.1, h.2⟩)
    | cons z c =>
      simp only [List.nil_append, List.cons_append, List.cons.injEq] at h
      exact .inl ⟨c, by rw [h.1]; rfl, h.2⟩
  | cons z a ih =>
    cases c with
    | nil =>
      simp only [List.nil_append, List.cons_append, List.cons.injEq] at h
      exact .inr (.inr ⟨a, by rw [h.1]; rfl, h.2.symm⟩)
    | cons w c =>
      simp only [List.cons_append, List.cons.injEq] at h
      rcases ih h.2 with ⟨f, h1, h2⟩ | ⟨h1, h2, h3⟩ | ⟨f, h1, h2⟩
      · exact .inl ⟨f, by rw [h.1, h1]; rfl, h2⟩
      · exact .inr (.inl ⟨by rw [h.1, h1], h2, h3⟩)
      · exact .inr (.inr ⟨f, by rw [h.1, h1]; rfl, h2⟩)

/-- The first eligible delimiter is unique. -/
theorem quoted_first {ds t t' rest rest' : List Byte} {d d' : Byte} (h : t ++ d :: rest = t' ++ d' :: rest')
    (ht : AllQuoted ds t) (hd : d ∈ ds) (hq : (t ++ [d]).count 34 % 2 = 0)
    (ht' : AllQuoted ds t') (hd' : d' ∈ ds) (hq' : (t' ++ [d']).count 34 % 2 = 0) : t = t' ∧ d = d' ∧ rest = rest' := by
  rcases split_cases h with ⟨f, h1, -⟩ | h | ⟨f, h1, -⟩
  · have := ht' t d f h1 hd; omega
  · exact h
  · have := ht t' d' f h1 hd'; omega

/-- Either all delimiters are quoted, or there is a first eligible one. -/
theorem quoted_split (ds l : List Byte) : AllQuoted ds l ∨
    ∃ t d rest, l = t ++ d :: rest ∧ AllQuoted ds t ∧ d ∈ ds ∧ (t ++ [d]).count 34 % 2 = 0 := by
  by_cases hc : AllQuoted ds l
  · exact .inl hc
  · right
    simp only [AllQuoted, Classical.not_forall] at hc
    obtain ⟨pre, x, post, e, hx, hn⟩ := hc
    have hn0 : (pre ++ [x]).count 34 % 2 = 0 := by omega
    clear hn
    induction hl : pre.length using Nat.strongRecOn generalizing pre x post with
    | ind n ih =>
      by_cases hp : AllQuoted ds pre
      · exact ⟨pre, x, post, e, hp, hx, hn0⟩
      · simp only [AllQuoted, Classical.not_forall] at hp
        obtain ⟨pre', x', post', e', hx', hn'⟩ := hp
        exact ih pre'.length (by rw [← hl, e']; simp) pre' x' (post' ++ x :: post) (by rw [e, e']; simp) hx' (by omega) rfl

theorem openDelims_append (ds : List Byte) (q : Nat) (a b : List Byte) :
    openDelims ds q (a ++ b) = openDelims ds q a + openDelims ds (q + a.count 34) b := by
  induction a generalizing q with
  | nil => simp [openDelims]
  | cons x a ih =>
    simp only [List.cons_append, openDelims]
    rw [ih]
    have : (if x = 34 then q + 1 else q) + a.count 34 = q + (x :: a).count 34 := by
      rw [List.count_cons]
      by_cases h : x = 34
      · simp [h]; omega
      · simp [h]
    rw [this]; omega

theorem openDelims_parity (ds : List Byte) {q q' : Nat} (h : q % 2 = q' % 2) (l : List Byte) : openDelims ds q l = openDelims ds q' l := by
  induction l generalizing q q' with
  | nil => rfl
  | cons x l ih =>
    simp only [openDelims]
    have h2 : (if x = 34 then q + 1 else q) % 2 = (if x = 34 then q' + 1 else q') % 2 := by split <;> omega
    rw [ih h2, h2]

theorem openDelims_quoted {ds : List Byte} {q : Nat} {t : List Byte}
    (h : ∀ pre x post, t = pre ++ x :: post → x ∈ ds → (q + (pre ++ [x]).count 34) % 2 = 1) : openDelims ds q t = 0 := by
  induction t generalizing q with
  | nil => rfl
  | cons x t ih =>
    simp only [openDelims]
    have hx : (q + [x].count 34) = if x = 34 then q + 1 else q := by
      by_cases h : x = 34 <;> simp [h]
    rw [ih, if_neg]
    · rintro ⟨h1, h2⟩
      have := h [] x t rfl h1
      rw [List.nil_append, hx] at this
      omega
    · intro pre y post e hy
      have := h (x :: pre) y post (by rw [e]; rfl) hy
      rw [← hx]
      have e2 : (x :: pre ++ [y]).count 34 = [x].count 34 + (pre ++ [y]).count 34 := by
        rw [← List.count_append]; rfl
      rw [e2] at this
      omega

theorem openDelims_single {ds : List Byte} {q : Nat} {d : Byte} (hd : d ∈ ds) (h : (q + [d].count 34) % 2 = 0) : openDelims ds q [d] = 1 := by
  have hx : (q + [d].count 34) = if d = 34 then q + 1 else q := by
    by_cases h : d = 34 <;> simp [h]
  rw [hx] at h
  simp only [openDelims]
  rw [if_pos ⟨hd, h⟩]

theorem allQuoted_of {ds t : List Byte} (h : openDelims ds 0 t = 0) : AllQuoted ds t := by
  intro pre x post e hx
  have e2 : t = pre ++ ([x] ++ post) := by rw [e]; simp
  rw [e2, openDelims_append, openDelims_append] at h
  by_cases hc : (pre ++ [x]).count 34 % 2 = 0
  · have := openDelims_single (q := 0 + pre.count 34) hx (by rw [List.count_append] at hc; omega)
    omega
  · omega

/-- C77. Every byte sequence has exactly one list of tokens outside quotes: one more than it has delimiters with an even
number of quotes up to them. -/
theorem C77_tokens_exist_unique (ds l : List Byte) :
    ∃ toks, QuotedTokens ds l toks ∧ toks.length = openDelims ds 0 l + 1 ∧ ∀ toks', QuotedTokens ds l toks' → toks' = toks := by
  induction hn : l.length using Nat.strongRecOn generalizing l with
  | ind n ih =>
    rcases quoted_split ds l with h | ⟨t, d, rest, rfl, ht, hd, hq⟩
    · refine ⟨[l], .last l h, ?_, ?_⟩
      · rw [openDelims_quoted (fun pre x post e hx => by have := h pre x post e hx; omega)]; rfl
      · intro toks' h'
        cases h' with
        | last => rfl
        | more t d rest toks ht hd hq hr => have := h t d rest rfl hd; omega
    · obtain ⟨toks, h1, h2, h3⟩ := ih rest.length (by rw [← hn]; simp; omega) rest rfl
      refine ⟨t :: toks, .more t d rest toks ht hd hq h1, ?_, ?_⟩
      · have e : t ++ d :: rest = (t ++ [d]) ++ rest := by simp
        have e1 : openDelims ds 0 t = 0 := openDelims_quoted (fun pre x post e hx => by have := ht pre x post e hx; omega)
        have e2 : openDelims ds (0 + t.count 34) [d] = 1 := openDelims_single hd (by rw [List.count_append] at hq; omega)
        rw [e, openDelims_append, openDelims_parity ds (q := 0 + (t ++ [d]).count 34) (q' := 0) (by omega), List.length_cons, h2]
        rw [openDelims_append, e1, e2]; omega
      · intro toks' h'
        generalize hl : t ++ d :: rest = l at h'
        cases h' with
        | last _ hno => have := hno t d rest hl.symm hd; omega
        | more t' d' rest' toks' ht' hd' hq' hr =>
          obtain ⟨rfl, rfl, rfl⟩ := quoted_first hl ht hd hq ht' hd' hq'
          rw [h3 _ hr]

/-- One split in terms of tokens. -/
theorem quoted_step {m : Mem} {ds : List Byte} {p : Addr} (hd : CString m p ds) : SplitStep m p true (QuotedTokens ds) := by
  intro v l toks h ht
  have H := split_first_nn_spec h hd true
  cases ht with
  | last _ hno =>
    rcases H with ⟨pre, d, post, r, h1, -⟩ | ⟨-, h2⟩
    · exact absurd h1 (allQuoted_iff.1 hno pre d post)
    · exact ⟨l, [], v, .invalid, rfl, h2, h, .inl ⟨rfl, rfl⟩⟩
  | more t d rest toks ht hdd hq hr =>
    rcases H with ⟨pre, d', post, r, h1, h2, h3, h4, h5, -⟩ | ⟨h1, -⟩
    · have hpre : AllQuoted ds pre := by
        rw [allQuoted_iff]
        rintro a x b ⟨e, hx, hxq⟩
        have := h2 a x (b ++ d' :: post) ⟨by rw [h1.1, e]; simp, hx, hxq⟩
        rw [e] at this
        simp only [List.length_append, List.length_cons] at this
        omega
      obtain ⟨rfl, rfl, rfl⟩ := quoted_first h1.1 ht hdd hq hpre h1.2.1 (h1.2.2 rfl)
      exact ⟨t, toks, _, r, rfl, h3, h4, .inr ⟨rest, hr, h5⟩⟩
    · exact absurd ⟨rfl, hdd, fun _ => hq⟩ (h1 t d rest)

/-- C77. Repeated splitting with `exclude_quotes`: after as many calls as there are tokens the source is invalid and the
results are the tokens in order; after fewer calls the source is still valid. -/
theorem C77_repeated_split {m : Mem} {v : View} {l ds : List Byte} {p : Addr} (h : ViewOf m v l)
    (hd : CString m p ds) {toks : List (List Byte)} (ht : QuotedTokens ds l toks) :
    (∃ vs, splitCalls m p true toks.length (some v) = .ok (vs, some .invalid) ∧ ViewsOf m vs toks) ∧
    (∀ k < toks.length, ∃ vs r, splitCalls m p true k (some v) = .ok (vs, some r) ∧
      strview_is_valid r = true ∧ ViewsOf m vs (toks.take k)) :=
  repeated_split_gen (quoted_step hd) h ht

/-- C77. `strview_split_all` with `exclude_quotes` stores the first `min dst_size count` tokens at the start of the
destination array, returns how many it stored, and leaves the rest of the array alone. -/
theorem C77_split_all {m : Mem} {v : View} {l ds : List Byte} {p : Addr} (h : ViewOf m v l)
    (hd : CString m p ds) {toks : List (List Byte)} (ht : QuotedTokens ds l toks) (dst : List View) (dst_size : Int)
    (hdst : dst_size ≤ dst.length) :
    ∃ vs, vs.length = min dst_size.toNat toks.length ∧ ViewsOf m vs (toks.take vs.length) ∧
      strview_split_all m dst_size dst v p true = .ok (vs.length, vs ++ dst.drop vs.length) := by
  have hlen : toks.length ≤ l.length + 1 := by
    clear hdst
    clear h
    induction ht with
    | last => simp
    | more t d rest toks _ _ _ _ ih =>
      simp only [List.length_append, List.length_cons]; omega
  obtain ⟨vs, h1, h2, h3⟩ := split_all_loop_gen (quoted_step hd) dst_size (v.size.toNat + 3) 0 dst h ht
    (by rw [h.sizeToNat]; omega) hdst
  refine ⟨vs, ?_, h2, ?_⟩
  · rw [h1]; simp
  · rw [strview_split_all, h3]; simp

/-- C77. Every token except the last one has complete quotes, if the delimiters do not contain the quote. -/
theorem C77_quotes_paired {ds l : List Byte} (hq : 34 ∉ ds) {toks : List (List Byte)} (h : QuotedTokens ds l toks) :
    ∀ t ∈ toks.dropLast, t.count 34 % 2 = 0 := by
  induction h with
  | last t => simp
  | more t d rest toks _ hd hc hr ih =>
    have hne : toks ≠ [] := by cases hr <;> simp
    rw [List.dropLast_cons_of_ne_nil hne]
    intro u hu
    rcases List.mem_cons.1 hu with rfl | hu
    · have : d ≠ 34 := fun e => hq (e ▸ hd)
      rw [List.count_append] at hc
      simpa [this] using hc
    · exact ih u hu

/-- `a,"b,c",d` has the tokens `a`, `"b,c"` and `d`; `"a,b` is one token, the quote is not closed. -/
example : QuotedTokens [44] [97, 44, 34, 98, 44, 99, 34, 44, 100] [[97], [34, 98, 44, 99, 34], [100]] ∧
    strview_split_all (memAt 1000 [97, 44, 34, 98, 44, 99, 34, 44, 100, 44, 0]) 3 [.invalid, .invalid, .invalid] ⟨1000, 9⟩ 1009 true =
      .ok (3, [⟨1000, 1⟩, ⟨1002, 5⟩, ⟨1008, 1⟩]) ∧
    strview_split_all (memAt 1000 [34, 97, 44, 98, 44, 0]) 3 [.invalid, .invalid, .invalid] ⟨1000, 4⟩ 1004 true =
      .ok (1, [⟨1000, 4⟩, .invalid, .invalid]) := by
  refine ⟨?_, by decide +kernel, by decide +kernel⟩
  exact .more [97] 44 [34, 98, 44, 99, 34, 44, 100] _ (allQuoted_of (by decide)) (by decide) (by decide)
    (.more [34, 98, 44, 99, 34] 44 [100] _ (allQuoted_of (by decide)) (by decide) (by decide) (.last [100] (allQuoted_of (by decide))))

end CStr
