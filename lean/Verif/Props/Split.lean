import Verif.Lemmas.Strview
import Verif.Lemmas.Examples
import Verif.Spec.Text
/-! Properties C10-C16: splitting views. -/
namespace CStr

theorem quoteParity_false (excl : Bool) (l : List Byte) :
    quoteParity excl l = false ↔ (excl = true → l.count 34 % 2 = 0) := by
  cases excl
  · simp [quoteParity]
  · simp only [quoteParity, Bool.true_and, beq_eq_false_iff_ne, ne_eq, forall_const]
    omega

theorem fwdPoint_iff (excl : Bool) (ds l : List Byte) (i : Nat) :
    FwdPoint excl ds l i ↔ ∃ pre d post, SplitsFwd excl ds l pre d post ∧ pre.length = i := by
  constructor
  · rintro ⟨h, h1, h2⟩
    refine ⟨l.take i, l[i], l.drop (i + 1), ⟨?_, h1, ?_⟩, by simp; omega⟩
    · simp
    · rw [quoteParity_false] at h2
      rwa [List.take_append_getElem]
  · rintro ⟨pre, d, post, ⟨rfl, h1, h2⟩, rfl⟩
    refine ⟨by simp, by simpa using h1, ?_⟩
    rw [quoteParity_false]
    have e : (pre ++ d :: post).take (pre.length + 1) = pre ++ [d] := by
      rw [List.take_append, List.take_of_length_le (by omega)]; simp
    rwa [e]

theorem bwdPoint_iff (excl : Bool) (ds l : List Byte) (i : Nat) :
    BwdPoint excl ds l i ↔ ∃ pre d post, SplitsBwd excl ds l pre d post ∧ pre.length = i := by
  constructor
  · rintro ⟨h, h1, h2⟩
    refine ⟨l.take i, l[i], l.drop (i + 1), ⟨?_, h1, ?_⟩, by simp; omega⟩
    · simp
    · rw [quoteParity_false] at h2
      rwa [← List.drop_eq_getElem_cons h]
  · rintro ⟨pre, d, post, ⟨rfl, h1, h2⟩, rfl⟩
    refine ⟨by simp, by simpa using h1, ?_⟩
    rw [quoteParity_false]
    rwa [List.drop_left]

/-- The view of what follows the delimiter: after it, except that an empty remainder points at it. -/
theorem rest_viewOf {m : Mem} {v : View} {pre post : List Byte} {d : Byte}
    (h : ViewOf m v (pre ++ d :: post)) (x : Addr)
    (hx : x = if pre.length + 1 = (pre ++ d :: post).length then v.data + pre.length
      else v.data + (pre.length + 1 : Nat)) :
    ViewOf m ⟨x, post.length⟩ post := by
  have hp := h.pos
  have hm := h.max
  simp only [List.length_append, List.length_cons] at hm hx
  refine { size := rfl, max := by omega, holds := ?_, pos := by simp only [hx]; split <;> omega }
  have h2 := (Holds.cons_iff.1 (Holds.append_iff.1 h.holds).2).2
  simp only [hx]
  split
  · have : post = [] := List.length_eq_zero_iff.1 (by omega)
    subst this
    exact Holds.nil _ _
  · have e : v.data + (pre.length : Int) + 1 = v.data + (pre.length + 1 : Nat) := by omega
    rwa [e] at h2

/-- General form of `strview_split_first_delim` (C10 and C11). -/
theorem split_first_nn_spec {m : Mem} {v : View} {l ds : List Byte} {p : Addr} (h : ViewOf m v l)
    (hd : CString m p ds) (excl : Bool) :
    (∃ pre d post r, SplitsFwd excl ds l pre d post ∧
      (∀ pre' d' post', SplitsFwd excl ds l pre' d' post' → pre.length ≤ pre'.length) ∧
      split_first_nn m v p excl = .ok (v.part 0 pre.length, r) ∧
      ViewOf m (v.part 0 pre.length) pre ∧ ViewOf m r post ∧
      r.data = (if post = [] then v.data + pre.length else v.data + pre.length + 1)) ∨
    ((∀ pre d post, ¬ SplitsFwd excl ds l pre d post) ∧
      split_first_nn m v p excl = .ok (v, .invalid)) := by
  simp only [split_first_nn, cstr_eq hd, Res.bind_ok]
  rcases split_first_delim_spec h hd.viewOf excl with ⟨i, h1, h2, h3⟩ | ⟨h1, h2⟩
  · left
    obtain ⟨pre, d, post, hs, rfl⟩ := (fwdPoint_iff ..).1 h1
    have hl := hs.1
    subst hl
    have e : (pre ++ d :: post).length - (pre.length + 1) = post.length := by
      simp only [List.length_append, List.length_cons]; omega
    rw [e] at h3
    refine ⟨pre, d, post, _, hs, ?_, h3, ?_, rest_viewOf h _ rfl, ?_⟩
    · intro pre' d' post' hs'
      have := mt (h2 pre'.length)
      rw [Classical.not_not] at this
      have := this ((fwdPoint_iff ..).2 ⟨_, _, _, hs', rfl⟩)
      omega
    · have := h.part 0 pre.length (by simp)
      simpa using this
    · by_cases hp : post = []
      · subst hp; simp
      · have : 0 < post.length := List.length_pos_iff.2 hp
        simp only [hp, if_false, List.length_append, List.length_cons]
        rw [if_neg (by omega)]; omega
  · right
    refine ⟨fun pre d post hs => h1 _ ((fwdPoint_iff ..).2 ⟨_, _, _, hs, rfl⟩), h2⟩

/-- C11 (first). With or without `exclude_quotes`: the split is at the first eligible delimiter; if there is none
the whole source is returned and the source becomes invalid. -/
theorem C11_split_first_delim {m : Mem} {v : View} {l ds : List Byte} {p : Addr} (h : ViewOf m v l)
    (hd : CString m p ds) (excl : Bool) :
    (∃ pre d post r, SplitsFwd excl ds l pre d post ∧
      (∀ pre' d' post', SplitsFwd excl ds l pre' d' post' → pre.length ≤ pre'.length) ∧
      strview_split_first_delim m (some v) p excl = .ok (v.part 0 pre.length, some r) ∧
      ViewOf m (v.part 0 pre.length) pre ∧ ViewOf m r post ∧
      r.data = (if post = [] then v.data + pre.length else v.data + pre.length + 1)) ∨
    ((∀ pre d post, ¬ SplitsFwd excl ds l pre d post) ∧
      strview_split_first_delim m (some v) p excl = .ok (v, some .invalid)) := by
  rcases split_first_nn_spec h hd excl with ⟨pre, d, post, r, h1, h2, h3, h4, h5, h6⟩ | ⟨h1, h2⟩
  · exact .inl ⟨pre, d, post, r, h1, h2, by simp [strview_split_first_delim, h3], h4, h5, h6⟩
  · exact .inr ⟨h1, by simp [strview_split_first_delim, h2]⟩

/-- C10. Without `exclude_quotes`: the token before the first delimiter is returned, the source becomes what follows
the delimiter; without a delimiter the whole source is returned and the source becomes invalid. -/
theorem C10_split_first_delim {m : Mem} {v : View} {l ds : List Byte} {p : Addr} (h : ViewOf m v l)
    (hd : CString m p ds) :
    (∃ tok d rest r, l = tok ++ d :: rest ∧ d ∈ ds ∧ (∀ x ∈ tok, x ∉ ds) ∧
      strview_split_first_delim m (some v) p false = .ok (v.part 0 tok.length, some r) ∧
      ViewOf m (v.part 0 tok.length) tok ∧ ViewOf m r rest ∧
      v.data + tok.length ≤ r.data ∧ r.data + r.size ≤ v.data + v.size) ∨
    ((∀ x ∈ l, x ∉ ds) ∧ strview_split_first_delim m (some v) p false = .ok (v, some .invalid)) := by
  rcases split_first_nn_spec h hd false with ⟨pre, d, post, r, h1, h2, h3, h4, h5, h6⟩ | ⟨h1, h2⟩
  · left
    refine ⟨pre, d, post, r, h1.1, h1.2.1, ?_, by simp [strview_split_first_delim, h3], h4, h5, ?_, ?_⟩
    · intro x hx hxd
      obtain ⟨a, b, rfl⟩ := List.append_of_mem hx
      have := h2 a x (b ++ d :: post) ⟨by simp [h1.1], hxd, by simp⟩
      simp at this
      omega
    · rw [h6]; split <;> omega
    · have := h.size
      rw [h5.size, h6, this, h1.1]
      simp only [List.length_append, List.length_cons]
      split <;> omega
  · right
    refine ⟨fun x hx hxd => ?_, by simp [strview_split_first_delim, h2]⟩
    obtain ⟨a, b, rfl⟩ := List.append_of_mem hx
    exact h1 a x b ⟨rfl, hxd, by simp⟩

/-- C10. A NULL pointer, an invalid source or NULL delimiters. -/
theorem C10_split_first_null (m : Mem) (p : Addr) (excl : Bool) (v : View) :
    strview_split_first_delim m none p excl = .ok (.invalid, none) ∧
    strview_split_first_delim m (some v) 0 excl = .ok (v, some .invalid) := by
  simp [strview_split_first_delim, split_first_nn, cstr_null, split_first_delim, View.invalid]

example : ViewOf (memAt 1000 [97, 44, 98, 59, 44, 59, 0]) ⟨1000, 4⟩ [97, 44, 98, 59] ∧
    CString (memAt 1000 [97, 44, 98, 59, 44, 59, 0]) (1000 + (4 : Nat)) [44, 59] ∧
    strview_split_first_delim (memAt 1000 [97, 44, 98, 59, 44, 59, 0]) (some ⟨1000, 4⟩) 1004 false =
      .ok (⟨1000, 1⟩, some ⟨1002, 2⟩) ∧
    strview_split_last_delim (memAt 1000 [97, 44, 98, 59, 44, 59, 0]) (some ⟨1000, 3⟩) 1004 false =
      .ok (⟨1002, 1⟩, some ⟨1000, 1⟩) :=
  ⟨viewOf_memAt_part 1000 _ 0 4 _ (by decide) (by decide) (by decide) (by decide) rfl,
   cstring_memAt 1000 _ 4 _ (by decide) (by decide) (by decide) (by decide) (by decide) (by decide),
   by decide +kernel, by decide +kernel⟩

/-- C11, both directions on `a",b",c` : the quoted comma is skipped. -/
example : SplitsFwd true [44] [97, 34, 44, 98, 34, 44, 99] [97, 34, 44, 98, 34] 44 [99] ∧
    ¬ SplitsFwd true [44] [97, 34, 44, 98, 34, 44, 99] [97, 34] 44 [98, 34, 44, 99] ∧
    strview_split_first_delim (memAt 1000 [97, 34, 44, 98, 34, 44, 99, 44, 0]) (some ⟨1000, 7⟩) 1007 true =
      .ok (⟨1000, 5⟩, some ⟨1006, 1⟩) := by
  refine ⟨⟨rfl, by decide, by decide⟩, fun h => by have := h.2.2 rfl; revert this; decide, by decide +kernel⟩

/-- General form of `strview_split_last_delim` (C11 and C12). -/
theorem C11_split_last_delim {m : Mem} {v : View} {l ds : List Byte} {p : Addr} (h : ViewOf m v l)
    (hd : CString m p ds) (excl : Bool) :
    (∃ pre d post r, SplitsBwd excl ds l pre d post ∧
      (∀ pre' d' post', SplitsBwd excl ds l pre' d' post' → pre'.length ≤ pre.length) ∧
      strview_split_last_delim m (some v) p excl = .ok (r, some (v.part 0 pre.length)) ∧
      ViewOf m (v.part 0 pre.length) pre ∧ ViewOf m r post ∧
      r.data = (if post = [] then v.data + pre.length else v.data + pre.length + 1)) ∨
    ((∀ pre d post, ¬ SplitsBwd excl ds l pre d post) ∧
      strview_split_last_delim m (some v) p excl = .ok (v, some .invalid)) := by
  simp only [strview_split_last_delim, cstr_eq hd, Res.bind_ok]
  rcases split_last_delim_spec h hd.viewOf excl with ⟨i, h1, h2, h3⟩ | ⟨h1, h2⟩
  · left
    obtain ⟨pre, d, post, hs, rfl⟩ := (bwdPoint_iff ..).1 h1
    have hl := hs.1
    subst hl
    have e : (pre ++ d :: post).length - (pre.length + 1) = post.length := by
      simp only [List.length_append, List.length_cons]; omega
    rw [e] at h3
    refine ⟨pre, d, post, _, hs, ?_, by rw [h3]; rfl, ?_, rest_viewOf h _ rfl, ?_⟩
    · intro pre' d' post' hs'
      have := mt (h2 pre'.length)
      rw [Classical.not_not] at this
      have := this ((bwdPoint_iff ..).2 ⟨_, _, _, hs', rfl⟩)
      omega
    · have := h.part 0 pre.length (by simp)
      simpa using this
    · by_cases hp : post = []
      · subst hp; simp
      · have : 0 < post.length := List.length_pos_iff.2 hp
        simp only [hp, if_false, List.length_append, List.length_cons]
        rw [if_neg (by omega)]; omega
  · right
    refine ⟨fun pre d post hs => h1 _ ((bwdPoint_iff ..).2 ⟨_, _, _, hs, rfl⟩), by rw [h2]; rfl⟩

/-- C12. `strview_split_last_delim` without `exclude_quotes`. -/
theorem C12_split_last_delim {m : Mem} {v : View} {l ds : List Byte} {p : Addr} (h : ViewOf m v l)
    (hd : CString m p ds) :
    (∃ rest d tok r, l = rest ++ d :: tok ∧ d ∈ ds ∧ (∀ x ∈ tok, x ∉ ds) ∧
      strview_split_last_delim m (some v) p false = .ok (r, some (v.part 0 rest.length)) ∧
      ViewOf m (v.part 0 rest.length) rest ∧ ViewOf m r tok ∧
      v.data + rest.length ≤ r.data ∧ r.data + r.size ≤ v.data + v.size) ∨
    ((∀ x ∈ l, x ∉ ds) ∧ strview_split_last_delim m (some v) p false = .ok (v, some .invalid)) := by
  rcases C11_split_last_delim h hd false with ⟨pre, d, post, r, h1, h2, h3, h4, h5, h6⟩ | ⟨h1, h2⟩
  · left
    refine ⟨pre, d, post, r, h1.1, h1.2.1, ?_, h3, h4, h5, ?_, ?_⟩
    · intro x hx hxd
      obtain ⟨a, b, rfl⟩ := List.append_of_mem hx
      have := h2 (pre ++ d :: a) x b ⟨by simp [h1.1], hxd, by simp⟩
      simp at this
      omega
    · rw [h6]; split <;> omega
    · have := h.size
      rw [h5.size, h6, this, h1.1]
      simp only [List.length_append, List.length_cons]
      split <;> omega
  · right
    refine ⟨fun x hx hxd => ?_, h2⟩
    obtain ⟨a, b, rfl⟩ := List.append_of_mem hx
    exact h1 a x b ⟨rfl, hxd, by simp⟩

/-- C12. A NULL pointer or NULL delimiters. -/
theorem C12_split_last_null (m : Mem) (p : Addr) (excl : Bool) (v : View) :
    strview_split_last_delim m none p excl = .ok (.invalid, none) ∧
    strview_split_last_delim m (some v) 0 excl = .ok (v, some .invalid) := by
  simp [strview_split_last_delim, cstr_null, split_last_delim, View.invalid]

/-! ### C13 -/

/-- The client loop: `n` calls of `strview_split_first_delim`, collecting the results. -/
def splitCalls (m : Mem) (p : Addr) (excl : Bool) : Nat → Option View → Res (List View × Option View)
  | 0, s => .ok ([], s)
  | n + 1, s => do
    let (t, s) ← strview_split_first_delim m s p excl
    let (ts, s) ← splitCalls m p excl n s
    .ok (t :: ts, s)

/-- The views `vs` are views of the byte sequences `ts`, one for one. -/
inductive ViewsOf (m : Mem) : List View → List (List Byte) → Prop
  | nil : ViewsOf m [] []
  | cons {v : View} {t : List Byte} {vs : List View} {ts : List (List Byte)} :
      ViewOf m v t → ViewsOf m vs ts → ViewsOf m (v :: vs) (t :: ts)

theorem ViewsOf.length {m : Mem} {vs : List View} {ts : List (List Byte)} (h : ViewsOf m vs ts) :
    vs.length = ts.length := by
  induction h with
  | nil => rfl
  | cons _ _ ih => simp [ih]

theorem not_mem_take_of_split {ds t : List Byte} {d : Byte} {rest t' : List Byte} {d' : Byte}
    {rest' : List Byte} (h : t ++ d :: rest = t' ++ d' :: rest') (ht : ∀ x ∈ t, x ∉ ds) (hd : d ∈ ds)
    (ht' : ∀ x ∈ t', x ∉ ds) (hd' : d' ∈ ds) : t = t' ∧ d = d' ∧ rest = rest' := by
  induction t generalizing t' with
  | nil =>
    cases t' with
    | nil => simp at h; exact ⟨rfl, h⟩
    | cons y t' =>
      simp at h
      exact absurd hd (h.1 ▸ ht' y (by simp))
  | cons x t ih =>
    cases t' with
    | nil =>
      simp at h
      exact absurd hd' (h.1 ▸ ht x (by simp))
    | cons y t' =>
      simp only [List.cons_append, List.cons.injEq] at h
      obtain ⟨h1, h2, h3⟩ := ih h.2 (fun z hz => ht z (by simp [hz])) (fun z hz => ht' z (by simp [hz]))
      exact ⟨by rw [h.1, h1], h2, h3⟩

/-- C13. Every byte sequence has exactly one list of tokens: one more than it has delimiters. -/
theorem C13_tokens_exist_unique (ds l : List Byte) :
    ∃ toks, Tokens ds l toks ∧ toks.length = l.countP (· ∈ ds) + 1 ∧ ∀ toks', Tokens ds l toks' → toks' = toks := by
  induction hn : l.length using Nat.strongRecOn generalizing l with
  | ind n ih =>
    by_cases hx : ∃ x ∈ l, x ∈ ds
    · -- first delimiter
      have : ∃ t d rest, l = t ++ d :: rest ∧ (∀ x ∈ t, x ∉ ds) ∧ d ∈ ds := by
        clear ih hn
        induction l with
        | nil => obtain ⟨x, hx, -⟩ := hx; simp at hx
        | cons y l ih =>
          by_cases hy : y ∈ ds
          · exact ⟨[], y, l, rfl, by simp, hy⟩
          · obtain ⟨x, hx1, hx2⟩ := hx
            have hxl : x ∈ l := by
              rcases List.mem_cons.1 hx1 with rfl | h
              · exact absurd hx2 hy
              · exact h
            obtain ⟨t, d, rest, rfl, ht, hd⟩ := ih ⟨x, hxl, hx2⟩
            refine ⟨y :: t, d, rest, rfl, ?_, hd⟩
            intro z hz
            rcases List.mem_cons.1 hz with rfl | h
            · exact hy
            · exact ht z h
      obtain ⟨t, d, rest, rfl, ht, hd⟩ := this
      obtain ⟨toks, h1, h2, h3⟩ := ih rest.length (by rw [← hn]; simp; omega) rest rfl
      refine ⟨t :: toks, .more t d rest toks ht hd h1, ?_, ?_⟩
      · have : t.countP (· ∈ ds) = 0 := by
          rw [List.countP_eq_zero]; intro a ha; simpa using ht a ha
        rw [List.length_cons, h2, List.countP_append, List.countP_cons, this]
        simp [hd]
      · intro toks' h'
        generalize hl : t ++ d :: rest = l at h'
        cases h' with
        | last _ hno => exact absurd hd (hno d (by rw [← hl]; simp))
        | more t' d' rest' toks' ht' hd' hr =>
          obtain ⟨rfl, rfl, rfl⟩ := not_mem_take_of_split hl ht hd ht' hd'
          rw [h3 _ hr]
    · have hno : ∀ x ∈ l, x ∉ ds := fun x h1 h2 => hx ⟨x, h1, h2⟩
      refine ⟨[l], .last l hno, ?_, ?_⟩
      · have : l.countP (· ∈ ds) = 0 := by
          rw [List.countP_eq_zero]; intro a ha; simpa using hno a ha
        simp [this]
      · intro toks' h'
        cases h' with
        | last => rfl
        | more t d rest toks ht hd hr => exact absurd hd (hno d (by simp))

/-- One split step in terms of tokens. -/
theorem split_step {m : Mem} {v : View} {l ds : List Byte} {p : Addr} (h : ViewOf m v l)
    (hd : CString m p ds) {toks : List (List Byte)} (ht : Tokens ds l toks) :
    ∃ t ts u s, toks = t :: ts ∧ split_first_nn m v p false = .ok (u, s) ∧ ViewOf m u t ∧
      ((ts = [] ∧ s = .invalid) ∨ ∃ rest, Tokens ds rest ts ∧ ViewOf m s rest) := by
  have H := C10_split_first_delim h hd
  simp only [strview_split_first_delim] at H
  cases ht with
  | last _ hno =>
    rcases H with ⟨tok, d, rest, r, hl, hdd, -⟩ | ⟨-, h2⟩
    · exact absurd hdd (hno d (by rw [hl]; simp))
    · refine ⟨l, [], v, .invalid, rfl, ?_, h, .inl ⟨rfl, rfl⟩⟩
      revert h2
      cases split_first_nn m v p false with
      | ok x => simp; rintro rfl h; exact Prod.ext rfl h
      | _ => simp
  | more t d rest toks ht hdd hr =>
    rcases H with ⟨tok, d', rest', r, hl, hdd', htok, he, hv1, hv2, -⟩ | ⟨hno, -⟩
    · obtain ⟨rfl, rfl, rfl⟩ := not_mem_take_of_split hl ht hdd htok hdd'
      refine ⟨t, toks, v.part 0 t.length, r, rfl, ?_, hv1, .inr ⟨rest, hr, hv2⟩⟩
      revert he
      cases split_first_nn m v p false with
      | ok x => simp; rintro h1 h2; exact Prod.ext h1 h2
      | _ => simp
    · exact absurd hdd (hno d (by simp))

/-- What one split does, in terms of a notion `T` of tokens. -/
def SplitStep (m : Mem) (p : Addr) (excl : Bool) (T : List Byte → List (List Byte) → Prop) : Prop :=
  ∀ {v : View} {l : List Byte} {toks : List (List Byte)}, ViewOf m v l → T l toks →
    ∃ t ts u s, toks = t :: ts ∧ split_first_nn m v p excl = .ok (u, s) ∧ ViewOf m u t ∧
      ((ts = [] ∧ s = .invalid) ∨ ∃ rest, T rest ts ∧ ViewOf m s rest)

theorem repeated_split_gen {m : Mem} {p : Addr} {excl : Bool} {T : List Byte → List (List Byte) → Prop} (step : SplitStep m p excl T)
    {v : View} {l : List Byte} (h : ViewOf m v l) {toks : List (List Byte)} (ht : T l toks) :
    (∃ vs, splitCalls m p excl toks.length (some v) = .ok (vs, some .invalid) ∧ ViewsOf m vs toks) ∧
    (∀ k < toks.length, ∃ vs r, splitCalls m p excl k (some v) = .ok (vs, some r) ∧
      strview_is_valid r = true ∧ ViewsOf m vs (toks.take k)) := by
  induction toks generalizing v l with
  | nil => obtain ⟨t, ts, u, s, e, -⟩ := step h ht; cases e
  | cons t0 ts ih =>
    obtain ⟨t, ts', u, s, e, hs, hu, hr⟩ := step h ht
    obtain ⟨rfl, rfl⟩ : t0 = t ∧ ts = ts' := by simpa using e
    constructor
    · rcases hr with ⟨rfl, rfl⟩ | ⟨rest, hr, hv⟩
      · refine ⟨[u], ?_, .cons hu .nil⟩
        simp [splitCalls, strview_split_first_delim, hs]
      · obtain ⟨⟨vs, h1, h2⟩, -⟩ := ih hv hr
        refine ⟨u :: vs, ?_, .cons hu h2⟩
        simp [splitCalls, strview_split_first_delim, hs, h1]
    · intro k hk
      cases k with
      | zero => exact ⟨[], v, rfl, is_valid_iff.2 h.ne_zero, .nil⟩
      | succ k =>
        rcases hr with ⟨rfl, rfl⟩ | ⟨rest, hr, hv⟩
        · simp at hk
        · obtain ⟨-, h2⟩ := ih hv hr
          obtain ⟨vs, r, h3, h4, h5⟩ := h2 k (by simpa using hk)
          refine ⟨u :: vs, r, ?_, h4, .cons hu h5⟩
          simp [splitCalls, strview_split_first_delim, hs, h3]

/-- C13. Repeated splitting: after as many calls as there are tokens the source is invalid and the results are the
tokens in order; after fewer calls the source is still valid. -/
theorem C13_repeated_split {m : Mem} {v : View} {l ds : List Byte} {p : Addr} (h : ViewOf m v l)
    (hd : CString m p ds) {toks : List (List Byte)} (ht : Tokens ds l toks) :
    (∃ vs, splitCalls m p false toks.length (some v) = .ok (vs, some .invalid) ∧ ViewsOf m vs toks) ∧
    (∀ k < toks.length, ∃ vs r, splitCalls m p false k (some v) = .ok (vs, some r) ∧
      strview_is_valid r = true ∧ ViewsOf m vs (toks.take k)) := by
  exact repeated_split_gen (fun h ht => split_step h hd ht) h ht

theorem setAt_eq {dst : List View} {i : Nat} (hi : i < dst.length) (v : View) :
    setAt dst i v = .ok (dst.take i ++ v :: dst.drop (i + 1)) := by
  rw [setAt, if_pos hi, List.set_eq_take_append_cons_drop, if_pos hi]

theorem split_all_loop_gen {m : Mem} {p : Addr} {excl : Bool} {T : List Byte → List (List Byte) → Prop} (step : SplitStep m p excl T) (dst_size : Int)
    (k count : Nat) (dst : List View) {v : View} {l : List Byte} (h : ViewOf m v l)
    {toks : List (List Byte)} (ht : T l toks) (hk : toks.length < k) (hdst : dst_size ≤ dst.length) :
    ∃ vs, vs.length = min (dst_size - count).toNat toks.length ∧ ViewsOf m vs (toks.take vs.length) ∧
      split_all_loop m dst_size p excl k count dst v =
        .ok (count + vs.length, dst.take count ++ vs ++ dst.drop (count + vs.length)) := by
  induction k generalizing count dst v l toks with
  | zero => omega
  | succ k ih =>
    have hval : strview_is_valid v = true := is_valid_iff.2 h.ne_zero
    by_cases hc : (count : Int) < dst_size
    · obtain ⟨t, ts, u, s, rfl, hs, hu, hr⟩ := step h ht
      have hcl : count < dst.length := by omega
      simp only [split_all_loop, hval, hc, and_self, if_true, hs, Res.bind_ok, setAt_eq hcl]
      have hl2 : (dst.take count ++ u :: dst.drop (count + 1)).length = dst.length := by
        simp only [List.length_append, List.length_take, List.length_cons, List.length_drop]; omega
      have ht2 : (dst.take count ++ u :: dst.drop (count + 1)).take (count + 1) = dst.take count ++ [u] := by
        rw [List.take_append, List.take_of_length_le (by simp; omega)]
        simp only [List.length_take]
        have : count + 1 - min count dst.length = 1 := by omega
        simp [this]
      have hd2 : ∀ j, (dst.take count ++ u :: dst.drop (count + 1)).drop (count + 1 + j) = dst.drop (count + 1 + j) := by
        intro j
        rw [List.drop_append, List.drop_of_length_le (by simp; omega)]
        have : count + 1 + j - min count dst.length = j + 1 := by omega
        simp [this]
      rcases hr with ⟨rfl, rfl⟩ | ⟨rest, hr, hv⟩
      · refine ⟨[u], ?_, ?_, ?_⟩
        · simp only [List.length_cons, List.length_nil]; omega
        · exact .cons hu .nil
        · cases k with
          | zero => simp at hk
          | succ k =>
            have : strview_is_valid View.invalid = false := rfl
            simp [split_all_loop, this]
      · obtain ⟨vs, h1, h2, h3⟩ := ih (count + 1) _ hv hr (by simpa using hk) (by rw [hl2]; exact hdst)
        refine ⟨u :: vs, ?_, .cons hu h2, ?_⟩
        · simp only [List.length_cons, h1]; omega
        · rw [h3, ht2, hd2]
          simp only [List.length_cons]
          have e : count + 1 + vs.length = count + (vs.length + 1) := by omega
          rw [e]; simp
    · refine ⟨[], ?_, ?_, ?_⟩
      · simp only [List.length_nil]; omega
      · exact .nil
      · simp only [split_all_loop, hc, and_false, if_false]
        simp

/-- C13. `strview_split_all` stores the first `min dst_size count` tokens at the start of the destination array,
returns how many it stored, and leaves the rest of the array alone. -/
theorem C13_split_all {m : Mem} {v : View} {l ds : List Byte} {p : Addr} (h : ViewOf m v l)
    (hd : CString m p ds) {toks : List (List Byte)} (ht : Tokens ds l toks) (dst : List View) (dst_size : Int)
    (hdst : dst_size ≤ dst.length) :
    ∃ vs, vs.length = min dst_size.toNat toks.length ∧ ViewsOf m vs (toks.take vs.length) ∧
      strview_split_all m dst_size dst v p false = .ok (vs.length, vs ++ dst.drop vs.length) := by
  have hlen : toks.length ≤ l.length + 1 := by
    obtain ⟨toks', h1, h2, h3⟩ := C13_tokens_exist_unique ds l
    rw [h3 _ ht, h2]
    have := List.countP_le_length (p := fun x => decide (x ∈ ds)) (l := l)
    omega
  obtain ⟨vs, h1, h2, h3⟩ := split_all_loop_gen (fun h ht => split_step h hd ht) dst_size (v.size.toNat + 3) 0 dst h ht
    (by rw [h.sizeToNat]; omega) hdst
  refine ⟨vs, ?_, h2, ?_⟩
  · rw [h1]; simp
  · rw [strview_split_all, h3]; simp

/-- C13. An invalid source has no tokens. -/
theorem C13_split_all_invalid (m : Mem) (p : Addr) (excl : Bool) (dst : List View) (dst_size : Int) :
    strview_split_all m dst_size dst .invalid p excl = .ok (0, dst) := by
  simp [strview_split_all, split_all_loop, strview_is_valid, View.invalid]

example : Tokens [44] [97, 44, 44, 98] [[97], [], [98]] :=
  .more [97] 44 [44, 98] _ (by decide) (by decide) (.more [] 44 [98] _ (by decide) (by decide) (.last [98] (by decide)))

example : strview_split_all (memAt 1000 [97, 44, 44, 98, 44, 0]) 2 [.invalid, .invalid, .invalid] ⟨1000, 4⟩ 1004 false =
      .ok (2, [⟨1000, 1⟩, ⟨1002, 0⟩, .invalid]) ∧
    strview_split_all (memAt 1000 [97, 44, 44, 98, 44, 0]) 3 [.invalid, .invalid, .invalid] ⟨1000, 4⟩ 1004 false =
      .ok (3, [⟨1000, 1⟩, ⟨1002, 0⟩, ⟨1003, 1⟩]) := by
  decide +kernel

/-! ### C14 - C16 -/

/-- C14. `strview_split_index` with `n ≥ 0` returns the first `min n size` bytes and leaves the rest; with `n < 0` it
returns the last `min (-n) size` bytes and leaves the rest. For every `int`. -/
theorem C14_split_index {m : Mem} {v : View} {l : List Byte} (h : ViewOf m v l) (n : Int)
    (h1 : INT_MIN ≤ n) (h2 : n ≤ INT_MAX) :
    ∃ a b, l = a ++ b ∧ ViewOf m (v.part 0 a.length) a ∧ ViewOf m (v.part a.length b.length) b ∧
      ((0 ≤ n ∧ (a.length : Int) = min n l.length ∧
          strview_split_index (some v) n = .ok (v.part 0 a.length, some (v.part a.length b.length))) ∨
       (n < 0 ∧ (b.length : Int) = min (-n) l.length ∧
          strview_split_index (some v) n = .ok (v.part a.length b.length, some (v.part 0 a.length)))) := by
  have key : ∀ k, k ≤ l.length → l = l.take k ++ l.drop k ∧ (l.take k).length = k ∧
      (l.drop k).length = l.length - k ∧ ViewOf m (v.part 0 k) (l.take k) ∧
      ViewOf m (v.part k (l.length - k)) (l.drop k) := by
    intro k hk
    have p1 := h.part 0 k (by omega)
    have p2 := h.part k (l.length - k) (by omega)
    rw [List.take_of_length_le (by simp)] at p2
    refine ⟨by simp, by simp; omega, by simp, by simpa using p1, p2⟩
  by_cases hn : 0 ≤ n
  · obtain ⟨k, rfl⟩ := Int.eq_ofNat_of_zero_le hn
    obtain ⟨e, l1, l2, v1, v2⟩ := key (min k l.length) (by omega)
    refine ⟨_, _, e, by rw [l1]; exact v1, by rw [l1, l2]; exact v2, .inl ⟨hn, ?_, ?_⟩⟩
    · rw [l1]; omega
    · rw [l1, l2]
      simp only [strview_split_index, split_index_nonneg h.size k, Res.bind_ok]
  · have hn' : n < 0 := by omega
    obtain ⟨e, l1, l2, v1, v2⟩ := key (l.length - n.natAbs) (by omega)
    refine ⟨_, _, e, by rw [l1]; exact v1, by rw [l1, l2]; exact v2, .inr ⟨hn', ?_, ?_⟩⟩
    · rw [l2]; omega
    · rw [l1, l2]
      simp only [strview_split_index, split_index_neg h.size h.max n h1 hn', Res.bind_ok]

/-- C14. Deviation of the document: docs/strview-api.md says that an index outside of the source returns an invalid view and leaves the source
unmodified. For every such index the code returns the whole source as a valid view and leaves an empty one, as strview.h says. -/
theorem C14_docs_deviation {m : Mem} {v : View} {l : List Byte} (h : ViewOf m v l) (hl : l ≠ []) (n : Int) (h1 : INT_MIN ≤ n) (h2 : n ≤ INT_MAX)
    (hn : (l.length : Int) < n ∨ n < -(l.length : Int)) :
    ∃ u s, strview_split_index (some v) n = .ok (u, some s) ∧ strview_is_valid u = true ∧ ViewOf m u l ∧ s ≠ v ∧ ViewOf m s [] := by
  have hpos := List.length_pos_iff.2 hl
  have hs := h.size
  have hne : ∀ i, v.part i 0 ≠ v := by
    intro i e
    have := congrArg View.size e
    simp only [View.part] at this
    omega
  obtain ⟨a, b, rfl, ha, hb, ⟨g1, g2, g3⟩ | ⟨g1, g2, g3⟩⟩ := C14_split_index h n h1 h2
  · have hb0 : b = [] := by
      rw [List.length_append] at *
      exact List.length_eq_zero_iff.1 (by omega)
    subst hb0
    rw [List.append_nil] at *
    exact ⟨_, _, g3, is_valid_iff.2 ha.ne_zero, ha, hne _, hb⟩
  · have ha0 : a = [] := by
      rw [List.length_append] at *
      exact List.length_eq_zero_iff.1 (by omega)
    subst ha0
    exact ⟨_, _, g3, is_valid_iff.2 hb.ne_zero, hb, hne _, ha⟩

example : strview_split_index (some ⟨1000, 2⟩) 3 = .ok (⟨1000, 2⟩, some ⟨1002, 0⟩) := by decide

/-- C14. On an invalid view both parts are invalid; a NULL pointer gives an invalid view. -/
theorem C14_split_index_invalid (n : Int) (h1 : INT_MIN ≤ n) (h2 : n ≤ INT_MAX) :
    strview_split_index (some .invalid) n = .ok (.invalid, some .invalid) ∧
    strview_split_index none n = .ok (.invalid, none) := by
  refine ⟨?_, rfl⟩
  by_cases hn : 0 ≤ n
  · obtain ⟨k, rfl⟩ := Int.eq_ofNat_of_zero_le hn
    rw [strview_split_index, split_index_nonneg (v := .invalid) (n := 0) rfl k]
    simp [View.part, View.invalid]
  · rw [strview_split_index, split_index_neg (v := .invalid) (n := 0) rfl (by simp [INT_MAX]) n h1 (by omega)]
    simp [View.part, View.invalid]

example : strview_split_index (some ⟨1000, 5⟩) (-2147483648) = .ok (⟨1000, 5⟩, some ⟨1000, 0⟩) ∧
    strview_split_index (some ⟨1000, 5⟩) (-2) = .ok (⟨1003, 2⟩, some ⟨1000, 3⟩) ∧
    strview_split_index (some ⟨1000, 5⟩) 2147483647 = .ok (⟨1000, 5⟩, some ⟨1005, 0⟩) := by
  decide

/-- C15. `strview_split_left` at a position view starting at offset `i` of the source. -/
theorem C15_split_left {m : Mem} {v pos : View} {a b : List Byte} (h : ViewOf m v (a ++ b))
    (hp : pos.data = v.data + a.length) :
    strview_split_left (some v) pos = .ok (v.part 0 a.length, some (v.part a.length b.length)) ∧
    ViewOf m (v.part 0 a.length) a ∧ ViewOf m (v.part a.length b.length) b := by
  have hpos := h.pos
  have hs := h.size
  simp only [List.length_append] at hs
  have p1 := h.part 0 a.length (by simp)
  have p2 := h.part a.length b.length (by simp)
  simp at p1 p2
  refine ⟨?_, p1, p2⟩
  have hv1 : strview_is_valid v = true := is_valid_iff.2 h.ne_zero
  have hv2 : strview_is_valid pos = true := is_valid_iff.2 (by omega)
  have c1 : v.data ≤ pos.data := by omega
  have c2 : pos.data ≤ v.data + v.size := by omega
  have e : pos.data - v.data = (a.length : Int) := by omega
  simp only [strview_split_left, hv1, hv2, c1, c2, and_self, if_true, e, split_index_nonneg hs, Res.bind_ok]
  have : min a.length (a.length + b.length) = a.length := by omega
  rw [this, Nat.add_sub_cancel_left]

/-- C15. `strview_split_right` at a position view ending at offset `i` of the source. -/
theorem C15_split_right {m : Mem} {v pos : View} {a b : List Byte} (h : ViewOf m v (a ++ b))
    (hv : pos.data ≠ 0) (hp : pos.data + pos.size = v.data + a.length) :
    strview_split_right (some v) pos = .ok (v.part a.length b.length, some (v.part 0 a.length)) ∧
    ViewOf m (v.part 0 a.length) a ∧ ViewOf m (v.part a.length b.length) b := by
  have hpos := h.pos
  have hs := h.size
  simp only [List.length_append] at hs
  have p1 := h.part 0 a.length (by simp)
  have p2 := h.part a.length b.length (by simp)
  simp at p1 p2
  refine ⟨?_, p1, p2⟩
  have hv1 : strview_is_valid v = true := is_valid_iff.2 h.ne_zero
  have hv2 : strview_is_valid pos = true := is_valid_iff.2 hv
  have c1 : v.data ≤ pos.data + pos.size := by omega
  have c2 : pos.data + pos.size ≤ v.data + v.size := by omega
  have e : pos.data + pos.size - v.data = (a.length : Int) := by omega
  simp only [strview_split_right, hv1, hv2, c1, c2, and_self, if_true, e, split_index_nonneg hs, Res.bind_ok,
    strview_swap]
  have : min a.length (a.length + b.length) = a.length := by omega
  rw [this, Nat.add_sub_cancel_left]

/-- C15. Every position view located in the source is covered by `C15_split_left` and `C15_split_right`. -/
theorem C15_located {m : Mem} {v : View} {l : List Byte} (h : ViewOf m v l) (x : Addr)
    (h1 : v.data ≤ x) (h2 : x ≤ v.data + v.size) : ∃ a b, l = a ++ b ∧ x = v.data + a.length := by
  have := h.size
  refine ⟨l.take (x - v.data).toNat, l.drop (x - v.data).toNat, by simp, ?_⟩
  simp only [List.length_take]
  omega

/-- C15. A position outside the source: invalid result, source unchanged. -/
theorem C15_split_outside (v pos : View) :
    (pos.data < v.data ∨ v.data + v.size < pos.data →
      strview_split_left (some v) pos = .ok (.invalid, some v)) ∧
    (pos.data + pos.size < v.data ∨ v.data + v.size < pos.data + pos.size →
      strview_split_right (some v) pos = .ok (.invalid, some v)) := by
  constructor
  · intro h
    simp only [strview_split_left]
    rw [if_neg (by omega)]
  · intro h
    simp only [strview_split_right]
    by_cases hv : strview_is_valid v = true ∧ strview_is_valid pos = true
    · rw [if_pos hv, if_neg (by omega)]
    · rw [if_neg hv]

/-- C15. Invalid views and NULL. -/
theorem C15_split_invalid (v pos : View) :
    strview_split_left (some v) .invalid = .ok (.invalid, some v) ∧
    strview_split_right (some v) .invalid = .ok (.invalid, some v) ∧
    strview_split_left (some .invalid) pos = .ok (.invalid, some .invalid) ∧
    strview_split_right (some .invalid) pos = .ok (.invalid, some .invalid) ∧
    strview_split_left none pos = .ok (.invalid, none) ∧
    strview_split_right none pos = .ok (.invalid, none) := by
  have h : strview_is_valid View.invalid = false := rfl
  simp [strview_split_left, strview_split_right, h]

example : strview_split_left (some ⟨1000, 5⟩) ⟨1002, 2⟩ = .ok (⟨1000, 2⟩, some ⟨1002, 3⟩) ∧
    strview_split_right (some ⟨1000, 5⟩) ⟨1002, 2⟩ = .ok (⟨1004, 1⟩, some ⟨1000, 4⟩) ∧
    strview_split_left (some ⟨1000, 5⟩) ⟨1006, 2⟩ = .ok (.invalid, some ⟨1000, 5⟩) := by
  decide

/-- C16. `strview_pop_first_char` on a non-empty view. -/
theorem C16_pop_cons {m : Mem} {v : View} {c : Byte} {l : List Byte} (h : ViewOf m v (c :: l)) :
    strview_pop_first_char m (some v) = .ok (c, some (v.part 1 l.length)) ∧
    ViewOf m (v.part 1 l.length) l := by
  have hs : v = ⟨v.data, ((c :: l).length : Int)⟩ := by rw [← h.size]
  have := pop_first_cons h.holds
  rw [← hs] at this
  refine ⟨by simp [strview_pop_first_char, this, View.part], ?_⟩
  have p := h.part 1 l.length (by simp; omega)
  simpa using p

/-- C16. On an empty, invalid or NULL view. -/
theorem C16_pop_empty {m : Mem} {v : View} (h : Denotes m v []) :
    strview_pop_first_char m (some v) = .ok (0, some v) ∧ strview_pop_first_char m none = .ok (0, none) := by
  have : v.size = 0 := h.size
  simp [strview_pop_first_char, pop_first_nn, this]

/-- The client loop: `n` pops. -/
def popCalls (m : Mem) : Nat → Option View → Res (List Byte × Option View)
  | 0, s => .ok ([], s)
  | n + 1, s => do
    let (c, s) ← strview_pop_first_char m s
    let (cs, s) ← popCalls m n s
    .ok (c :: cs, s)

/-- C16. Popping `n` times yields the first `n` bytes in order and leaves the rest. -/
theorem C16_pop_all {m : Mem} {v : View} {l r : List Byte} (h : ViewOf m v (l ++ r)) :
    popCalls m l.length (some v) = .ok (l, some (v.part l.length r.length)) := by
  induction l generalizing v with
  | nil =>
    have := h.size
    simp only [List.nil_append] at this
    simp [popCalls, View.part, ← this]
  | cons c l ih =>
    obtain ⟨e, hv⟩ := C16_pop_cons h
    simp only [List.length_cons, popCalls, e, Res.bind_ok, ih hv]
    simp only [View.part, Int.natCast_add, Int.natCast_one]
    congr 4; omega

example : popCalls (memAt 1000 [97, 98, 99]) 2 (some ⟨1000, 3⟩) = .ok ([97, 98], some ⟨1002, 1⟩) := by
  decide +kernel

end CStr
