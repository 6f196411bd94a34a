import Verif.Lemmas.Print
import Verif.Props.PrnfForm
/-! Property C73: printing a view with `PRIstr`. -/
namespace CStr

/-- C73. `printf` of the C library with `PRIstr` and `PRIstrarg` prints the characters of the view up to the first NUL, and reads nothing outside the view: the hypothesis
says nothing about the memory around it. -/
theorem C73_printf {m : Mem} {v : View} {l : List Byte} (h : Denotes m v l) : pri_str m v = .ok (l.takeWhile (· ≠ 0)) := pri_str_eq h

theorem takeWhile_noNul {l : List Byte} (h0 : (0 : Byte) ∉ l) : l.takeWhile (· ≠ 0) = l := by
  have := List.takeWhile_append_of_pos (p := fun x : Byte => decide (x ≠ 0)) (l₁ := l) (l₂ := [])
    (by intro x hx; simpa using fun e : x = 0 => h0 (e ▸ hx))
  simpa using this

/-- C73. So a view without a NUL is printed as it is. -/
theorem C73_printf_all {m : Mem} {v : View} {l : List Byte} (h : Denotes m v l) (h0 : (0 : Byte) ∉ l) : pri_str m v = .ok l := by
  rw [C73_printf h, takeWhile_noNul h0]

/-- A view as an argument of the formatter, `t` being the C string that starts where the view does. -/
def viewConv (v : View) (t : List Byte) : Conv := ⟨[], none, some (.star v.size), .none, 115, .str v.data t⟩

theorem viewConv_ok {m : Mem} {v : View} {l t : List Byte} (hv : v.size = l.length) (hm : (l.length : Int) ≤ INT_MAX)
    (ht : v.data = 0 ∧ t = [] ∨ CString m v.data t) : (viewConv v t).Ok m := by
  have e0 : 0 ≤ v.size := by omega
  refine ⟨?_, ?_, ?_, ?_, ?_⟩
  · simp [viewConv, Value.HasLetter]
  · intro w hw; simp [viewConv] at hw
  · rintro p ⟨⟩; simp only [Count.Ok, INT_MIN]; omega
  · exact ht
  · rintro p ⟨⟩; exact e0

/-- Literal text around a view. -/
def viewItems (pre post : List Byte) (v : View) (t : List Byte) : List FmtItem :=
  pre.map .lit ++ .conv (viewConv v t) :: post.map .lit

theorem lits_text (l : List Byte) : formatText (l.map .lit) = l := by
  induction l with
  | nil => rfl
  | cons b l ih => simp only [List.map_cons, formatText, List.flatMap_cons, FmtItem.text] at ih ⊢; rw [ih]; rfl

theorem lits_args (l : List Byte) : formatArgs (l.map .lit) = [] := by
  induction l with
  | nil => rfl
  | cons b l ih => simp only [List.map_cons, formatArgs, List.flatMap_cons, FmtItem.args] at ih ⊢; rw [ih]; rfl

theorem lits_output (done l : List Byte) (is : List FmtItem) : formatOutputFrom done (l.map .lit ++ is) = formatOutputFrom (done ++ l) is := by
  induction l generalizing done with
  | nil => simp
  | cons b l ih => simp only [List.map_cons, List.cons_append, formatOutputFrom, FmtItem.output]; rw [ih]; simp

theorem lits_itemsOk {m : Mem} {l : List Byte} {is : List FmtItem} (h : ∀ b ∈ l, b ≠ 0 ∧ b ≠ 37 ∧ b ≠ 11) (hi : ItemsOk m is) :
    ItemsOk m (l.map .lit ++ is) := by
  induction l with
  | nil => exact hi
  | cons b l ih => exact ⟨h b (by simp), ih fun x hx => h x (by simp [hx])⟩

theorem lits_ok {m : Mem} {u : List Byte} {l : List Byte} (h : ∀ b ∈ l, b ≠ 0 ∧ b ≠ 37 ∧ b ≠ 11) : ItemsBefore m u (l.map .lit) := by
  induction l with
  | nil => trivial
  | cons b l ih => exact ⟨h b (by simp), ih fun x hx => h x (by simp [hx])⟩

theorem viewItems_text (pre post : List Byte) (v : View) (t : List Byte) :
    formatText (viewItems pre post v t) = pre ++ [37, 46, 42, 115] ++ post := by
  have : formatText (viewItems pre post v t) = formatText (pre.map .lit) ++ ((viewConv v t).text ++ formatText (post.map .lit)) := by
    simp only [formatText, viewItems, List.flatMap_append, List.flatMap_cons, FmtItem.text]
  rw [this, lits_text, lits_text]
  simp [viewConv, Conv.text, Count.text, LenMod.text]

theorem viewItems_args (pre post : List Byte) (v : View) (t : List Byte) :
    formatArgs (viewItems pre post v t) = [.int v.size, .ptr v.data] := by
  have : formatArgs (viewItems pre post v t) = formatArgs (pre.map .lit) ++ ((viewConv v t).args ++ formatArgs (post.map .lit)) := by
    simp only [formatArgs, viewItems, List.flatMap_append, List.flatMap_cons, FmtItem.args]
  rw [this, lits_args, lits_args]
  simp [viewConv, Conv.args, Count.args, Value.args]

/-- C73. The formatter of test/prnf.c, which `strbuf_prnf` uses, prints the same, if there is a NUL somewhere behind the start of the view. Missing for the full property: a view without one
(`C73_prnf_deviation`). -/
theorem C73_prnf_partial {m : Mem} {fmt : Addr} {pre post : List Byte} (hfmt : Holds m fmt (pre ++ [37, 46, 42, 115] ++ post ++ [0]))
    (hsz : (pre ++ [37, 46, 42, 115] ++ post).length < 2 ^ 64) (plain : ∀ b ∈ pre ++ post, b ≠ 0 ∧ b ≠ 37 ∧ b ≠ 11)
    {v : View} {l t : List Byte} (hv : Denotes m v l) (ht : v.data = 0 ∧ t = [] ∨ CString m v.data t) (more : List VArg)
    (hlen : ((pre ++ l.takeWhile (· ≠ 0) ++ post).length : Int) ≤ INT_MAX) :
    printed m fmt ([.int v.size, .ptr v.data] ++ more) =
      .ok (((pre ++ l.takeWhile (· ≠ 0) ++ post).length : Int), pre ++ l.takeWhile (· ≠ 0) ++ post) := by
  have hcut : t.take l.length = l.takeWhile (· ≠ 0) := by
    rcases ht with ⟨h0, rfl⟩ | ht
    · cases l with
      | nil => rfl
      | cons b l =>
        have := hv.holds.load_head
        rw [h0] at this
        simp [load, rd] at this
    · have hz := ht.noNul
      have hh := ht.holds
      by_cases hle : l.length ≤ t.length
      · have hl : l = t.take l.length := by
          apply (hv.holds).unique
          · have := hh.take l.length
            rwa [List.take_append_of_le_length hle] at this
          · rw [List.length_take]; omega
        rw [← hl, takeWhile_noNul]
        intro hx
        rw [hl] at hx
        exact hz (List.mem_of_mem_take hx)
      · have hl : t ++ [0] = l.take (t.length + 1) := by
          apply hh.unique (hv.holds.take _)
          simp only [List.length_append, List.length_cons, List.length_nil, List.length_take]; omega
        have e : l = t ++ 0 :: l.drop (t.length + 1) := by
          conv => lhs; rw [← List.take_append_drop (t.length + 1) l, ← hl]
          simp
        rw [List.take_of_length_le (by omega), e, List.takeWhile_append_of_pos (by intro x hx; simpa using fun e : x = 0 => hz (e ▸ hx))]
        simp
  have hout : formatOutput (viewItems pre post v t) = pre ++ l.takeWhile (· ≠ 0) ++ post := by
    rw [formatOutput, viewItems, lits_output, formatOutputFrom]
    have := lits_output ([] ++ pre ++ FmtItem.output (column ([] ++ pre)) (.conv (viewConv v t))) post []
    rw [List.append_nil] at this
    rw [this, formatOutputFrom]
    have : (viewConv v t).output = t.take l.length := by
      have hs : v.size.toNat = l.length := by rw [hv.size]; simp
      simp [Conv.output, viewConv, Conv.centred, Conv.minWidth, Conv.field, Conv.left, Conv.cut, Count.val, hs]
    simp only [FmtItem.output, this, hcut, List.nil_append]
  have hok : ItemsOk m (viewItems pre post v t) := by
    refine lits_itemsOk (fun b hb => plain b (by simp [hb])) ⟨viewConv_ok hv.size hv.max ht, ?_⟩
    have := lits_itemsOk (m := m) (l := post) (is := []) (fun b hb => plain b (by simp [hb])) trivial
    rwa [List.append_nil] at this
  have := C59_printed more (is := viewItems pre post v t) (fmt := fmt) (m := m) ⟨by rw [viewItems_text]; exact hfmt, by rw [viewItems_text]; exact hsz, hok⟩
    (by rw [hout]; exact hlen)
  rw [hout, viewItems_args] at this
  exact this

/-- If the search for the end of the string is undefined, so is the call. -/
theorem prnf_view_ub {m : Mem} {fmt : Addr} {pre post : List Byte} (hfmt : Holds m fmt (pre ++ [37, 46, 42, 115] ++ post ++ [0]))
    (hsz : (pre ++ [37, 46, 42, 115] ++ post).length < 2 ^ 64) (plain : ∀ b ∈ pre, b ≠ 0 ∧ b ≠ 37 ∧ b ≠ 11)
    {v : View} {l : List Byte} (hv : ViewOf m v l) {w : UB} (hlen' : prnf_strlen m v.data = .ub w) (more : List VArg)
    (hlen : (pre.length : Int) ≤ INT_MAX) :
    printed m fmt ([.int v.size, .ptr v.data] ++ more) = .ub w := by
  have hout : formatOutput (pre.map .lit) = pre := by
    have := lits_output [] pre []
    rw [List.append_nil] at this
    rw [formatOutput, this]; rfl
  obtain ⟨o, k, e⟩ := printed_before (m := m) (fmt := fmt) (is := pre.map .lit) (u := [37, 46, 42, 115] ++ post)
    ([.int v.size, .ptr v.data] ++ more) (by rw [lits_text, ← List.append_assoc]; exact hfmt) (by rw [lits_text, ← List.append_assoc]; exact hsz)
    (lits_ok plain) (by rw [hout]; exact hlen)
  rw [lits_args, List.nil_append] at e
  rw [e, lits_text]
  have hok : (viewConv ⟨0, v.size⟩ []).Ok m := viewConv_ok hv.size hv.max (.inl ⟨rfl, rfl⟩)
  have hT : (viewConv ⟨0, v.size⟩ []).tailText = [46, 42, 115] := by
    have := conv_text (viewConv ⟨0, v.size⟩ [])
    simp [viewConv, Conv.text, Count.text, LenMod.text] at this
    exact this.symm
  have hf : Holds m (fmt + pre.length) ([37, 46, 42, 115] ++ post ++ [0]) := by
    rw [List.append_assoc, List.append_assoc, ← List.append_assoc [37, 46, 42, 115]] at hfmt
    exact (Holds.append_iff.1 hfmt).2
  have hf1 : Holds m (fmt + pre.length + 1) ((viewConv ⟨0, v.size⟩ []).tailText ++ (post ++ [0])) := by
    rw [hT]; exact (Holds.cons_iff.1 hf).2
  have hf2 : load m (fmt + pre.length + 1) = .ok 46 := Holds.load_head (Holds.cons_iff.1 hf).2
  have hd : read_dynamic (viewConv ⟨0, v.size⟩ []).parsed (.int v.size :: .ptr v.data :: more) = .ok ((viewConv ⟨0, v.size⟩ []).ph, .ptr v.data :: more) :=
    read_dynamic_eq hok.typed (.ptr v.data :: more)
  have hr : read_varg (viewConv ⟨0, v.size⟩ []).parsed (.int v.size :: .ptr v.data :: more) =
      .ok ((viewConv ⟨0, v.size⟩ []).ph, .str v.data, more) := by
    rw [read_varg, hd]; rfl
  have hp : print_placeholder (collect m) o (.str v.data) (viewConv ⟨0, v.size⟩ []).ph = .ub w := by
    show print_str (collect m) o _ v.data = _
    rw [print_str]
    show (prnf_strlen m v.data >>= _) = _
    rw [hlen']; rfl
  have hcore : core_loop (collect m) (k + 2) o (fmt + pre.length) (.int v.size :: .ptr v.data :: more) = .ub w := by
    rw [core_loop]
    show (load m (fmt + pre.length) >>= _) = _
    rw [Holds.load_head (l := [46, 42, 115] ++ post ++ [0]) (b := 37) hf, Res.bind_ok]
    simp only [if_neg (show ¬ (37 : Byte) = 0 by decide), if_true]
    show (load m (fmt + pre.length + 1) >>= _) = _
    rw [hf2, Res.bind_ok]
    simp only [if_neg (show ¬ (46 : Byte) = 37 by decide)]
    show (parse_placeholder m (fmt + pre.length + 1) >>= _) = _
    rw [parse_placeholder_eq hok.typed hf1 (by rw [hT]; decide), Res.bind_ok]
    simp only [hr, Res.bind_ok, hp]
    rfl
  show (core_loop (collect m) (k + 2) o (fmt + pre.length) (.int v.size :: .ptr v.data :: more) >>= _) = _
  rw [hcore]; rfl

/-- C73. Deviation: the formatter looks for the end of the string first (prnf.c line 904), whatever the precision. If no NUL follows the characters of a view and the memory after them is not
readable, the behaviour is undefined, although the view is valid. -/
theorem C73_prnf_deviation {m : Mem} {fmt : Addr} {pre post : List Byte} (hfmt : Holds m fmt (pre ++ [37, 46, 42, 115] ++ post ++ [0]))
    (hsz : (pre ++ [37, 46, 42, 115] ++ post).length < 2 ^ 64) (plain : ∀ b ∈ pre, b ≠ 0 ∧ b ≠ 37 ∧ b ≠ 11)
    {v : View} {l : List Byte} (hv : ViewOf m v l) (h0 : (0 : Byte) ∉ l) (hend : load m (v.data + l.length) = .ub .badRead) (more : List VArg)
    (hlen : (pre.length : Int) ≤ INT_MAX) :
    printed m fmt ([.int v.size, .ptr v.data] ++ more) = .ub .badRead := by
  have hstr : ∀ (l : List Byte) (k : Nat) (a : Addr) (n : Nat), Holds m a l → (0 : Byte) ∉ l → load m (a + l.length) = .ub .badRead → l.length < k →
      ((n + l.length : Nat) : Int) ≤ INT_MAX → prnf_strlen_loop m k a n = .ub .badRead := by
    intro l
    induction l with
    | nil =>
      intro k a n _ _ he hk _
      obtain ⟨k, rfl⟩ : ∃ j, k = j + 1 := ⟨k - 1, by simp at hk; omega⟩
      have he' : load m a = .ub .badRead := by simpa using he
      simp [prnf_strlen_loop, he']
    | cons b l ih =>
      intro k a n h hz he hk hl
      obtain ⟨k, rfl⟩ : ∃ j, k = j + 1 := ⟨k - 1, by simp at hk; omega⟩
      have hb : b ≠ 0 := fun e => hz (by simp [e])
      simp only [List.length_cons] at hl he hk
      rw [prnf_strlen_loop, h.load_head, Res.bind_ok, if_neg hb, ckInt_ok (by simp only [INT_MIN]; omega) (by omega), Res.bind_ok]
      have := ih k (a + 1) (n + 1) (Holds.cons_iff.1 h).2 (fun h => hz (by simp [h]))
        (by rw [show a + 1 + (l.length : Int) = a + ((l.length + 1 : Nat) : Int) by omega]; exact he) (by omega) (by omega)
      rwa [show ((n + 1 : Nat) : Int) = (n : Int) + 1 by omega] at this
  have hpos := hv.pos
  have hlen' : prnf_strlen m v.data = .ub .badRead := by
    rw [prnf_strlen, if_pos (by omega)]
    exact hstr l strBound v.data 0 hv.holds h0 hend (by have := hv.max; simp only [strBound, INT_MAX] at *; omega) (by have := hv.max; omega)
  exact prnf_view_ub hfmt hsz plain hv hlen' more hlen

/-- The search for the end of a string: it is found if there is a NUL within INT_MAX readable bytes, and undefined otherwise. -/
theorem prnf_strlen_total (m : Mem) {a : Addr} (ha : 0 < a) : (∃ t, CString m a t) ∨ ((¬ ∃ t, CString m a t) ∧ ∃ w, prnf_strlen m a = .ub w) := by
  have key : ∀ (k : Nat) (l : List Byte), Holds m a l → (0 : Byte) ∉ l → (l.length : Int) ≤ INT_MAX → INT_MAX < (l.length + k : Nat) →
      (∃ t, CString m a t) ∨ ∃ w, prnf_strlen_loop m k (a + l.length) l.length = .ub w := by
    intro k
    induction k with
    | zero => intro l _ _ h1 h2; omega
    | succ k ih =>
      intro l hl h0 h1 h2
      simp only [prnf_strlen_loop]
      cases hc : load m (a + l.length) with
      | ok c =>
        rw [Res.bind_ok]
        have hrd : Holds m a (l ++ [c]) := Holds.append_iff.2 ⟨hl, by
          intro i hi
          simp only [List.length_cons, List.length_nil] at hi
          obtain rfl : i = 0 := by omega
          have : rd m (a + l.length) = some c := by
            simp only [load] at hc
            split at hc
            · rename_i b hb; rw [hb]; cases hc; rfl
            · cases hc
          simpa using this⟩
        by_cases hz : c = 0
        · subst hz
          exact .inl ⟨l, ha, h1, h0, hrd⟩
        · rw [if_neg hz]
          by_cases hm : (l.length : Int) + 1 ≤ INT_MAX
          · rw [ckInt_ok (by simp only [INT_MIN]; omega) hm, Res.bind_ok]
            have := ih (l ++ [c]) hrd (by simp [h0, Ne.symm hz]) (by simp; omega) (by simp; omega)
            simpa [Int.add_assoc] using this
          · right
            exact ⟨.signedOverflow, by simp only [ckInt]; rw [if_neg (by omega)]; rfl⟩
      | ub w => exact .inr ⟨w, rfl⟩
      | fuel => exact absurd hc (by simp only [load]; split <;> simp)
      | env w => exact absurd hc (by simp only [load]; split <;> simp)
  by_cases h : ∃ t, CString m a t
  · exact .inl h
  · refine .inr ⟨h, ?_⟩
    rcases key strBound [] (fun i hi => absurd hi (by simp)) (by simp) (by decide) (by decide) with h' | h'
    · exact absurd h' h
    · rw [prnf_strlen, if_pos (by omega)]
      simpa using h'

/-- C73. What the formatter does with every valid view: if there is a NUL within INT_MAX readable bytes behind its start, it prints the characters
of the view up to the first NUL; if there is none, the behaviour is undefined. -/
theorem C73_prnf_exact {m : Mem} {fmt : Addr} {pre post : List Byte} (hfmt : Holds m fmt (pre ++ [37, 46, 42, 115] ++ post ++ [0]))
    (hsz : (pre ++ [37, 46, 42, 115] ++ post).length < 2 ^ 64) (plain : ∀ b ∈ pre ++ post, b ≠ 0 ∧ b ≠ 37 ∧ b ≠ 11)
    {v : View} {l : List Byte} (hv : ViewOf m v l) (more : List VArg) (hlen : ((pre ++ l.takeWhile (· ≠ 0) ++ post).length : Int) ≤ INT_MAX) :
    ((∃ t, CString m v.data t) ∧ printed m fmt ([.int v.size, .ptr v.data] ++ more) =
      .ok (((pre ++ l.takeWhile (· ≠ 0) ++ post).length : Int), pre ++ l.takeWhile (· ≠ 0) ++ post)) ∨
    ((¬ ∃ t, CString m v.data t) ∧ ∃ w, printed m fmt ([.int v.size, .ptr v.data] ++ more) = .ub w) := by
  rcases prnf_strlen_total m hv.pos with ⟨t, ht⟩ | ⟨h, w, hw⟩
  · exact .inl ⟨⟨t, ht⟩, C73_prnf_partial hfmt hsz plain hv.toDenotes (.inr ht) more hlen⟩
  · exact .inr ⟨h, w, prnf_view_ub hfmt hsz (fun b hb => plain b (by simp [hb])) hv hw more (by simp only [List.length_append] at hlen; omega)⟩

-- `[%.*s]`, its terminator, and "cd" with nothing behind it: `printf` prints the view, the formatter reads too far
def exPri : List Byte := [91, 37, 46, 42, 115, 93, 0, 99, 100]
theorem exPri_view : ViewOf (memAt 8000 exPri) ⟨8007, 2⟩ [99, 100] :=
  { size := rfl, max := by decide, holds := (holds_memAt 8000 exPri (by decide) (by decide)).drop 7 (by decide), pos := by decide }
example : pri_str (memAt 8000 exPri) ⟨8007, 2⟩ = .ok [99, 100] := C73_printf_all exPri_view.toDenotes (by decide)
example : printed (memAt 8000 exPri) 8000 [.int 2, .ptr 8007] = .ub .badRead :=
  C73_prnf_deviation (pre := [91]) (post := [93]) ((holds_memAt 8000 exPri (by decide) (by decide)).take 7) (by decide) (by decide)
    exPri_view (by decide) (by decide) [] (by decide)
-- both cases of `C73_prnf_exact`
example : ((∃ t, CString (memAt 8000 exPri) 8007 t) ∧ printed (memAt 8000 exPri) 8000 [.int 2, .ptr 8007] = .ok (4, [91, 99, 100, 93])) ∨
    ((¬ ∃ t, CString (memAt 8000 exPri) 8007 t) ∧ ∃ w, printed (memAt 8000 exPri) 8000 [.int 2, .ptr 8007] = .ub w) :=
  C73_prnf_exact (pre := [91]) (post := [93]) ((holds_memAt 8000 exPri (by decide) (by decide)).take 7) (by decide) (by decide) exPri_view [] (by decide)
-- with a NUL, or more characters and a NUL, behind it, both print it
example : printed (memAt 8000 (exPri ++ [101, 0])) 8000 [.int 2, .ptr 8007] = .ok (4, [91, 99, 100, 93]) := by
  have hh := holds_memAt 8000 (exPri ++ [101, 0]) (by decide) (by decide)
  generalize memAt 8000 (exPri ++ [101, 0]) = m at hh
  have hv : Denotes m ⟨8007, 2⟩ [99, 100] := ⟨rfl, by decide, (hh.drop 7 (by decide)).take 2⟩
  have ht : CString m 8007 [99, 100, 101] := ⟨by decide, by decide, by decide, hh.drop 7 (by decide)⟩
  exact C73_prnf_partial (pre := [91]) (post := [93]) (hh.take 7) (by decide) (by decide) hv (.inr ht) [] (by decide)
-- a view with a NUL inside is printed up to it
example : pri_str (memAt 100 [97, 0, 98]) ⟨100, 3⟩ = .ok [97] :=
  C73_printf (l := [97, 0, 98]) ⟨rfl, by decide, holds_memAt 100 _ (by decide) (by decide)⟩

end CStr
