import Verif.Spec.Alias
import Verif.Lemmas.BufOp
/-
  Every function that is given a dangling pointer reads or writes the header first.
-/
namespace CStr

/-- An outcome that is undefined behaviour. -/
def Res.IsUb (r : Res α) : Prop := ∃ w, r = .ub w

theorem IsUb.bind {r : Res α} (h : r.IsUb) (f : α → Res β) : (r >>= f).IsUb := by
  obtain ⟨w, rfl⟩ := h
  exact ⟨w, rfl⟩

theorem IsUb.okBind {a : α} {f : α → Res β} (h : (f a).IsUb) : ((Res.ok a : Res α) >>= f).IsUb := h

theorem IsUb.ite {c : Prop} [Decidable c] {x y : Res α} (hx : x.IsUb) (hy : y.IsUb) : (if c then x else y).IsUb := by
  split
  · exact hx
  · exact hy

section
variable {m : Mem} {p : Addr} (h : Dangling m p)
include h

theorem Dangling.rd (k : Nat) (hk : k < 24) : CStr.rd m (p + k) = none := by
  have := h.pos
  have := h.top
  have hl : ¬ litBase ≤ p + (k : Int) := by omega
  have h0 : ¬ p + (k : Int) ≤ 0 := by omega
  simp only [CStr.rd, if_neg hl, if_neg h0]
  exact h.gone _ ⟨by omega, by omega⟩

theorem Dangling.getField (off k : Nat) (ho : off < 24) (hk : 0 < k) : (CStr.getField m p off k).IsUb := by
  simp only [CStr.getField, checkPtr]
  split
  · exact ⟨_, rfl⟩
  · obtain ⟨k, rfl⟩ : ∃ j, k = j + 1 := ⟨k - 1, by omega⟩
    refine IsUb.okBind (IsUb.bind ?_ _)
    simp only [readBytes]
    refine IsUb.bind ?_ _
    exact ⟨_, by simp only [load, h.rd off ho]; rfl⟩

theorem Dangling.getSize : (CStr.getSize m p).IsUb := IsUb.bind (h.getField 0 4 (by omega) (by omega)) _
theorem Dangling.getCap : (CStr.getCap m p).IsUb := IsUb.bind (h.getField 4 4 (by omega) (by omega)) _
theorem Dangling.dynamic : (buf_is_dynamic m p).IsUb := IsUb.bind (h.getField 16 8 (by omega) (by omega)) _

theorem Dangling.empty : (empty_buf m p).IsUb := by
  refine IsUb.bind ?_ _
  simp only [setSize, setField, checkPtr]
  split
  · exact ⟨_, rfl⟩
  · refine IsUb.okBind ?_
    obtain ⟨x, l, hx⟩ : ∃ x l, leBytes 4 (ofInt32 0) = x :: l := ⟨_, _, rfl⟩
    rw [hx]
    simp only [writeBytes]
    refine IsUb.bind ?_ _
    have hn := h.gone (p + (0 : Nat)) ⟨by omega, by omega⟩
    exact ⟨.badWrite, by simp only [store, hn]; simp⟩

theorem Dangling.view : (strview_of_buf m p).IsUb := by
  have := h.pos
  rw [strview_of_buf, if_pos (by omega)]
  exact IsUb.bind h.getSize _

theorem Dangling.deref : CStr.deref (some p) = some p := by
  have := h.pos
  exact if_neg (by omega)

theorem Dangling.ensure (cfg : Cfg) {s : St} (hs : s.mem = m) (n : Int) : (ensure_capacity cfg s p n).IsUb := by
  subst hs
  exact IsUb.bind h.dynamic _

theorem Dangling.insert (cfg : Cfg) {s : St} (hs : s.mem = m) (i : Int) (v : View) : (insert_and_view cfg s p i v).IsUb := by
  subst hs
  exact IsUb.bind (IsUb.bind (IsUb.bind h.getSize _) _) _

theorem Dangling.viewOr {s : St} (hs : s.mem = m) : (view_or_invalid s (some p)).IsUb := by
  subst hs
  exact IsUb.bind h.view _

end

theorem ReadableCstr.eq {m : Mem} {a : Addr} (h : ReadableCstr m a) : ∃ v, cstr m a = .ok v := by
  rcases h with rfl | ⟨l, h⟩
  · exact ⟨_, cstr_null m⟩
  · exact ⟨_, cstr_eq h⟩

theorem dangling_run {cfg : Cfg} {s : St} {p : Addr} (h : Dangling s.mem p) {op : BufOp} (hc : op.CstrsReadable s.mem) : (op.run cfg s (some p)).IsUb := by
  have hd := h.deref
  have happ : ∀ v, (strbuf_append_strview cfg s (some p) v).IsUb := fun v => by
    simp only [strbuf_append_strview, hd]; exact IsUb.bind h.getSize _
  have hpre : ∀ v, (strbuf_prepend_strview cfg s (some p) v).IsUb := fun v => by
    simp only [strbuf_prepend_strview, hd]; exact h.insert cfg rfl _ _
  have hat : ∀ i v, (strbuf_insert_at_index_strview cfg s (some p) i v).IsUb := fun i v => by
    simp only [strbuf_insert_at_index_strview, hd]; exact h.insert cfg rfl _ _
  have hbef : ∀ d v, (strbuf_insert_before_strview cfg s (some p) d v).IsUb := fun d v => by
    simp only [strbuf_insert_before_strview, hd]; exact IsUb.bind h.getSize _
  have haft : ∀ d v, (strbuf_insert_after_strview cfg s (some p) d v).IsUb := fun d v => by
    simp only [strbuf_insert_after_strview, hd]
    split
    · exact IsUb.bind h.getSize _
    · exact h.viewOr rfl
  have hstr : ∀ v, (strbuf_strip_strview cfg s (some p) v).IsUb := fun v => by
    simp only [strbuf_strip_strview, hd]
    split
    · exact IsUb.bind h.getSize _
    · exact h.viewOr rfl
  have hcs : ∀ {a} (f : View → BufRes), ReadableCstr s.mem a → (∀ v, (f v).IsUb) → (cstr s.mem a >>= f).IsUb := fun f ha hf => by
    obtain ⟨v, hv⟩ := ha.eq
    rw [hv]
    exact IsUb.okBind (hf v)
  cases op with
  | append v => exact happ v
  | appendCstr a => exact hcs _ hc happ
  | prepend v => exact hpre v
  | prependCstr a => exact hcs _ hc hpre
  | insertAtIndex i v => exact hat i v
  | insertAtIndexCstr i a => exact hcs _ hc (hat i)
  | insertBefore d v => exact hbef d v
  | insertBeforeCstr d a => exact hcs _ hc (hbef d)
  | insertAfter d v => exact haft d v
  | insertAfterCstr d a => exact hcs _ hc (haft d)
  | strip v => exact hstr v
  | stripCstr a => exact hcs _ hc hstr
  | assign v =>
    simp only [BufOp.run, strbuf_assign, hd]
    split
    · exact IsUb.bind (h.ensure cfg rfl _) _
    · exact IsUb.bind h.empty _
  | cat vs =>
    simp only [BufOp.run, strbuf_cat, hd]
    refine IsUb.bind ?_ _
    cases vs with
    | nil => exact IsUb.bind (IsUb.bind h.dynamic _) _
    | cons v vs =>
      refine IsUb.bind ?_ _
      simp only [vcat_scan]
      have hb := IsUb.bind h.getSize (fun size => Res.ok (decide (cstrOf p ≤ v.data ∧ v.data < cstrOf p + size)))
      simp only [add_will_overflow_int, addInt]
      split
      · exact IsUb.okBind (IsUb.okBind (IsUb.bind hb _))
      · split
        · exact IsUb.okBind (IsUb.okBind (IsUb.bind hb _))
        · exact ⟨_, rfl⟩
  | appendChar c =>
    simp only [BufOp.run, strbuf_append_char, hd]
    exact IsUb.bind (IsUb.bind h.getSize _) _
  | shrink =>
    simp only [BufOp.run, strbuf_shrink, hd]
    exact IsUb.bind h.dynamic _
  | grow n =>
    simp only [BufOp.run, strbuf_grow, hd]
    exact IsUb.bind h.dynamic _
  | appendUsing f =>
    simp only [BufOp.run, strbuf_append_using, hd]
    exact IsUb.bind h.getCap _
  | printf f =>
    simp only [BufOp.run, strbuf_printf, hd]
    exact IsUb.bind h.empty _
  | appendPrintf f =>
    simp only [BufOp.run, strbuf_append_printf, hd]
    exact IsUb.bind h.getSize _
  | prnf t =>
    simp only [BufOp.run, strbuf_prnf, hd]
    exact IsUb.bind h.empty _
  | appendPrnf t =>
    simp only [BufOp.run, strbuf_append_prnf, hd]
    exact IsUb.bind h.getSize _

end CStr
