import Verif.Lemmas.Grep
/-! Every step of the program of Spec/Grep.lean keeps its invariant. -/
namespace CStr

/-- A step is legal, keeps the invariant and, unless the operating system fails, makes the measure smaller. -/
def StepOk (cfg : Cfg) (dflt : Alloc) (K : Nat → List Byte) (inp : List Byte) (p : Place) (A : Mixed) (w : World) (μ : Nat) (x : IAct) : Prop :=
  x.Legal cfg dflt K A ∧ ∀ d a B w1, d ≠ some 0 → x.Step cfg dflt K d A w a B w1 → ∃ μ', (d ≠ none → μ' < μ) ∧ GrepInv dflt K inp (p.next a) B w1 μ'

theorem content_if_fits {b : Buf} {e : Edit} (hs : e.self = false) (h : b.Fits (e.wanted b).length) : e.content b = e.wanted b := by
  unfold Edit.content
  split
  · cases hs
  · exact if_pos h

section

variable {cfg : Cfg} {dflt : Alloc} {K : Nat → List Byte} {inp : List Byte} {A : Mixed} {w : World} {μ : Nat}

theorem step_empty0 (hd : dflt.Ok) (h : GrepInv dflt K inp .empty0 A w μ) : StepOk cfg dflt K inp .empty0 A w μ (.act (.cmd (.cmd (.createEmpty 0 0 none)))) := by
  obtain ⟨h0, h1, hv, rfl, rfl⟩ := h
  refine ⟨⟨h0, hd, by decide⟩, ?_⟩
  rintro d a B w1 - ⟨⟨rfl, rfl⟩, rfl⟩
  exact ⟨_, fun _ => Nat.lt_succ_self _, rfl, h1, by simp [Mixed.run, hv], rfl, rfl⟩

theorem step_empty1 (hd : dflt.Ok) (h : GrepInv dflt K inp .empty1 A w μ) : StepOk cfg dflt K inp .empty1 A w μ (.act (.cmd (.cmd (.createEmpty 1 0 none)))) := by
  obtain ⟨h0, h1, hv, rfl, rfl⟩ := h
  refine ⟨⟨h1, hd, by decide⟩, ?_⟩
  rintro d a B w1 - ⟨⟨rfl, rfl⟩, rfl⟩
  exact ⟨_, fun _ => Nat.lt_succ_self _, h0, rfl, by simp [Mixed.run, hv], rfl, rfl⟩

theorem step_needle (hd : dflt.Ok) (h : GrepInv dflt K inp .needle A w μ) : StepOk cfg dflt K inp .needle A w μ (.act (.cmd (.const 1))) := by
  obtain ⟨h0, h1, hv, rfl, rfl⟩ := h
  refine ⟨trivial, ?_⟩
  rintro d a B w1 - ⟨⟨rfl, rfl⟩, rfl⟩
  refine ⟨_, fun _ => Nat.lt_succ_self _, [], [], _, _, ⟨h0, h1, hd.some, hd.some, by simp [hv], by simp [Mixed.view, hv], by simp, by simp [joinLines], rfl⟩, rfl, by simp, by simp [pot]⟩

theorem step_top {v : Nat} (h : GrepInv dflt K inp (.top v) A w μ) : StepOk cfg dflt K inp (.top v) A w μ (.act (.ask (.bufSize 0))) := by
  obtain ⟨done, pend, b0, b1, g, e, hn, rfl⟩ := h
  refine ⟨⟨(fun i hi => by simp [Query.uses] at hi), b0, g.buf0⟩, ?_⟩
  rintro d a B w1 - ⟨⟨rfl, b, hb, rfl⟩, rfl⟩
  rw [g.buf0] at hb; cases hb
  exact ⟨_, fun _ => Nat.lt_succ_self _, done, pend, b0, b1, g, e, hn, rfl, rfl⟩

theorem step_grow {v : Nat} {n : Int} (hi : (inp.length : Int) + cfg.growStep ≤ INT_MAX) (hp : 0 < cfg.growStep) (h : GrepInv dflt K inp (.grow v n) A w μ) :
    StepOk cfg dflt K inp (.grow v n) A w μ (.act (.cmd (.cmd (.op 0 (.grow (n + 1)))))) := by
  obtain ⟨done, pend, b0, b1, g, e, hn, rfl, rfl⟩ := h
  have hs := g.short
  rw [← e] at hs
  refine ⟨⟨handle0 g, trivial, fun b hb => ?_⟩, ?_⟩
  · rw [g.buf0] at hb; cases hb
    refine ⟨.inr (.inr (.inl ?_)), ?_⟩
    · simp only [HOp.edit, Edit.wanted]; omega
    · show (b0.data.length : Int) + 1 ≤ INT_MAX; omega
  rintro d a B w1 - ⟨⟨rfl, rfl⟩, rfl⟩
  have hc : ((HOp.grow ((b0.data.length : Int) + 1)).edit K A.σ 0 b0).content b0 = b0.data := by
    exact content_if_fits rfl (.inr ⟨g.dyn0, by simp only [HOp.edit, Edit.wanted]; omega⟩)
  refine ⟨_, fun _ => Nat.lt_succ_self _, done, pend, _, b1, g.op0 _, ?_, hn, ?_, rfl⟩
  · exact hc.trans e
  · simp only [Edit.apply, hc]
    simp only [HOp.edit, Edit.cap, if_pos g.dyn0]
    omega

theorem content_view_const {h : Nat} {b : Buf} {l : List Byte} {k j i n : Nat} (hv : A.view k = .part (.const j) i n) : (A.content h b l).view k = .part (.const j) i n := by
  have : (A.content h b l).view k = AView.within h l.length (A.view k) := map_view _ _ rfl _ _ _
  rw [this, hv]; rfl

theorem step_read {v : Nat} (h : GrepInv dflt K inp (.read v) A w μ) : StepOk cfg dflt K inp (.read v) A w μ (.read 0) := by
  obtain ⟨done, pend, b0, b1, g, rfl, hn, hc, rfl⟩ := h
  refine ⟨handle0 g, ?_⟩
  rintro d a B w1 hd (⟨e, -⟩ | ⟨b, e, h⟩)
  · rw [g.buf0] at e; cases e
  rw [g.buf0] at e; cases e
  rcases h with ⟨rfl, rfl, rfl, rfl⟩ | ⟨j, l, rest, rfl, e1, e2, rfl, rfl, rfl⟩
  · exact ⟨_, fun h => absurd rfl h, done, _, b0, b1, g, rfl, hn, rfl⟩
  have hj : j ≠ 0 := fun h => hd (by rw [h])
  have g' : Grepping K inp (A.content 0 b0 (b0.data ++ l)) { w with inp := rest } v done (b0.data ++ l) (found K done) { b0 with data := b0.data ++ l } b1 :=
    ⟨rfl, g.buf1, g.dyn0, g.dyn1, by simp [Mixed.content, g.number], content_view_const g.needle, g.lines, by rw [g.total, e1]; simp, g.out⟩
  have hi : w.inp.length = l.length + rest.length := by rw [e1, List.length_append]
  by_cases hl : l.length = 0
  · have hinp : w.inp.length = 0 := by omega
    obtain rfl := List.length_eq_zero_iff.1 hl
    refine ⟨pot w b0.data b1 + 5, fun _ => by omega, ?_⟩
    have : Place.next (.read v) (.int ((([] : List Byte).length : Nat) : Int)) = .rest v := rfl
    rw [this]
    have hr : rest = [] := List.length_eq_zero_iff.1 (by omega)
    subst hr
    exact ⟨done, _, _, b1, g', rfl, by simpa using hn, rfl, by simp [pot, List.length_eq_zero_iff.1 hinp]⟩
  · have : Place.next (.read v) (.int (l.length : Int)) = .src v := by
      simp only [Place.next]
      rw [if_neg (by omega), if_neg (by omega)]
    rw [this]
    refine ⟨_, fun _ => ?_, done, _, _, b1, g', rfl, rfl⟩
    simp only [pot, List.length_append]
    omega

theorem whole_seg {b0 : Buf} (h0 : A.σ 0 = some (.buf b0)) : Seg { A with views := A.views ++ [A.σ.whole 0] } b0 A.views.length b0.data := by
  refine ⟨0, b0.data.length, ?_, by omega, by simp⟩
  rw [view_append, if_pos rfl, AState.whole, h0]

theorem step_src {v : Nat} (h : GrepInv dflt K inp (.src v) A w μ) : StepOk cfg dflt K inp (.src v) A w μ (.act (.cmd (.view 0))) := by
  obtain ⟨done, pend, b0, b1, g, rfl, rfl⟩ := h
  refine ⟨handle0 g, ?_⟩
  rintro d a B w1 - ⟨⟨rfl, rfl⟩, rfl⟩
  refine ⟨_, fun _ => Nat.lt_succ_self _, g.pos, Nat.lt_succ_self _, done, _, b0, b1, g.push _, ?_, rfl⟩
  have := whole_seg g.buf0
  rwa [g.number] at this

theorem step_split {v k : Nat} (hK : K 0 = [10]) (h : GrepInv dflt K inp (.split v k) A w μ) :
    StepOk cfg dflt K inp (.split v k) A w μ (.act (.cmd (.call (.splitFirst k (some 0) false)))) := by
  obtain ⟨hk, hkv, done, pend, b0, b1, g, hs, rfl⟩ := h
  refine ⟨⟨fun i hi => ?_, fun j hj => ?_⟩, ?_⟩
  · obtain rfl : i = k := by simpa [VCall.uses] using hi
    exact hs.fresh
  · cases hj; rw [hK]; decide
  rintro d a B w1 - ⟨⟨rfl, c, s, hsp, rfl⟩, rfl⟩
  rw [hs.text g.buf0] at hsp
  obtain ⟨i, n, e, e1, e2⟩ := hs
  have hlen : n = pend.length := by rw [← e2]; simp; omega
  have hnum := g.number
  -- the state after the split
  have g' : Grepping K inp (A.keepSplit k c s) w1 (v + 1) done pend (found K done) b0 b1 := by
    refine ⟨g.buf0, g.buf1, g.dyn0, g.dyn1, by simp [Mixed.keepSplit, g.number], ?_, g.lines, g.total, g.out⟩
    rw [Mixed.keepSplit, view_append_lt (by rw [List.length_set]; omega)]
    have := g.needle
    rw [Mixed.view] at this
    rw [← this, List.getD_eq_getElem?_getD, List.getElem?_set_ne (by omega), ← List.getD_eq_getElem?_getD]
  have hline : (A.keepSplit k c s).view v = (AView.part (.buf 0) i n).cut c := by
    simp only [Mixed.keepSplit, Mixed.view, List.getD_eq_getElem?_getD]
    rw [List.getElem?_append_right (by rw [List.length_set]; omega), List.length_set, hnum, Nat.sub_self]
    have : A.view k = A.views[k]?.getD .null := by rw [Mixed.view, List.getD_eq_getElem?_getD]
    rw [← this, e]; rfl
  have hsrc : (A.keepSplit k c s).view k = (AView.part (.buf 0) i n).cut s := by
    simp only [Mixed.keepSplit, Mixed.view, List.getD_eq_getElem?_getD]
    rw [List.getElem?_append_left (by rw [List.length_set]; omega), List.getElem?_set_self (by omega)]
    have : A.view k = A.views[k]?.getD .null := by rw [Mixed.view, List.getD_eq_getElem?_getD]
    rw [← this, e]; rfl
  refine ⟨_, fun _ => Nat.lt_succ_self _, hk, hkv, done, pend, b0, b1, g', rfl, ?_⟩
  have hdrop : ∀ x y : Nat, x + y ≤ n → (b0.data.drop (i + x)).take y = (pend.drop x).take y := by
    intro x y hxy
    rw [← e2, List.drop_take, List.drop_drop, List.take_take, Nat.min_eq_left (by omega)]
  rcases splitFirst_line hK hsp with ⟨pre, post, rfl, hpre, rfl, rfl⟩ | ⟨hno, rfl, rfl⟩
  · right
    simp only [List.length_append, List.length_cons] at hlen
    refine ⟨pre, post, rfl, hpre, ⟨i + 0, pre.length, hline, by omega, ?_⟩, ⟨i + behindAt pre post, post.length, hsrc, ?_, ?_⟩⟩
    · rw [hdrop 0 pre.length (by omega)]; simp
    · unfold behindAt; split <;> omega
    · unfold behindAt
      split
      · next h => subst h; simp
      · rw [hdrop _ _ (by omega)]
        rw [show pre ++ 10 :: post = (pre ++ [10]) ++ post by simp, show pre.length + 1 = (pre ++ [10]).length by simp, List.drop_left, List.take_length]
  · left
    refine ⟨hsrc, hno, i + 0, pend.length, hline, by omega, ?_⟩
    rw [hdrop 0 pend.length (by omega)]; simp

theorem step_valid {l k : Nat} (h : GrepInv dflt K inp (.valid l k) A w μ) : StepOk cfg dflt K inp (.valid l k) A w μ (.act (.ask (.valid k))) := by
  obtain ⟨hk, hkl, done, pend, b0, b1, g, rfl, h⟩ := h
  refine ⟨⟨fun i hi => ?_, trivial⟩, ?_⟩
  · obtain rfl : i = k := by simpa [Query.uses] using hi
    rcases h with ⟨h, -⟩ | ⟨ln, post, -, -, -, h⟩
    · rw [Mixed.Fresh, h]; intro h; cases h
    · exact h.fresh
  rintro d a B w1 - ⟨⟨rfl, r, rfl, hr⟩, rfl⟩
  refine ⟨_, fun _ => Nat.lt_succ_self _, ?_⟩
  rcases h with ⟨h, hn, hs⟩ | ⟨ln, post, rfl, hn, hs, h⟩
  · have : r = false := by cases r <;> simp_all
    subst this
    exact ⟨by omega, done, pend, b0, b1, g, rfl, hn, hs⟩
  · have : r = true := hr.2 h.valid
    subst this
    exact ⟨hk, hkl, done, _, b0, b1, g, rfl, ln, post, rfl, hn, hs, h⟩

theorem contains_fresh {l v : Nat} {done : List (List Byte)} {pend o t : List Byte} {b0 b1 : Buf} (g : Grepping K inp A w v done pend o b0 b1) (hs : Seg A b0 l t) :
    (Query.contains l 0).Legal K A := by
  refine ⟨fun i hi => ?_, trivial⟩
  simp only [Query.uses, List.mem_cons, List.not_mem_nil, or_false] at hi
  rcases hi with rfl | rfl
  · exact hs.fresh
  · exact g.fresh

theorem contains_iff {l v : Nat} {done : List (List Byte)} {pend o t : List Byte} {b0 b1 : Buf} (g : Grepping K inp A w v done pend o b0 b1) (hs : Seg A b0 l t) :
    (A.view l ≠ .null ∧ A.view 0 ≠ .null ∧ A.text K 0 <:+: A.text K l) ↔ K 1 <:+: t := by
  rw [g.text, hs.text g.buf0]
  exact ⟨fun h => h.2.2, fun h => ⟨hs.valid, (by rw [g.needle]; intro h; cases h), h⟩⟩

theorem step_has {l k : Nat} (h : GrepInv dflt K inp (.has l k) A w μ) : StepOk cfg dflt K inp (.has l k) A w μ (.act (.ask (.contains l 0))) := by
  obtain ⟨hk, hkl, done, pend, b0, b1, g, rfl, ln, post, rfl, hn, hs, hp⟩ := h
  refine ⟨contains_fresh g hs, ?_⟩
  rintro d a B w1 - ⟨⟨rfl, r, rfl, hr⟩, rfl⟩
  rw [contains_iff g hs] at hr
  cases r with
  | true => exact ⟨_, fun _ => Nat.lt_succ_self _, hk, hkl, done, _, b0, b1, g, rfl, ln, post, rfl, hn, hs, hp, hr.1 rfl⟩
  | false =>
    have hno : ¬ K 1 <:+: ln := fun h => by cases hr.2 h
    refine ⟨pot w1 post b1 + 12, fun _ => ?_, hk, by omega, done ++ [ln], post, b0, b1, ?_, hp, rfl⟩
    · simp only [pot, List.length_append, List.length_cons]; omega
    · refine ⟨g.buf0, g.buf1, g.dyn0, g.dyn1, g.number, g.needle, ?_, ?_, ?_⟩
      · intro x hx
        rcases List.mem_append.1 hx with hx | hx
        · exact g.lines x hx
        · obtain rfl : x = ln := by simpa using hx
          exact hn
      · rw [joinLines_append, joinLines_one, g.total]; simp
      · rw [found, selected_append, selected_no hno, List.append_nil]; exact g.out

theorem step_app {l k : Nat} (hi : (inp.length : Int) + cfg.growStep ≤ INT_MAX) (hpos : 0 < cfg.growStep) (h : GrepInv dflt K inp (.app l k) A w μ) :
    StepOk cfg dflt K inp (.app l k) A w μ (.act (.cmd (.op 1 (.append l)))) := by
  obtain ⟨hk, hkl, done, pend, b0, b1, g, rfl, ln, post, rfl, hn, hs, hp, hc⟩ := h
  obtain ⟨hl, hb⟩ := hs.src (K := K) g.buf0
  have hsh := g.short
  simp only [List.length_append, List.length_cons] at hsh
  obtain ⟨ok, con⟩ := append_content (cfg := cfg) g.dyn1 (S := ln) (by omega) hpos
  have hedit : ((WOp.append l).hop A).edit K A.σ 1 b1 = .insert b1.data.length ln := by simp only [WOp.hop, HOp.edit, hb]
  refine ⟨⟨fun i hi => ?_, handle1 g, hl, fun b e => ?_⟩, ?_⟩
  · obtain rfl : i = l := by simpa [WOp.uses] using hi
    exact hs.fresh
  · rw [g.buf1] at e; cases e; rw [hedit]; exact ok
  rintro d a B w1 - ⟨⟨rfl, rfl⟩, rfl⟩
  have g' := g.op1 (cfg := cfg) (dflt := dflt) ((WOp.append l).hop A)
  rw [hedit, con, ← List.append_assoc, g.out] at g'
  refine ⟨_, fun _ => ?_, hk, hkl, done, ln, post, b0, (Edit.insert b1.data.length ln).apply cfg b1, ?_, rfl, hp.op1 _, hc⟩
  · simp only [pot, List.length_append, List.length_cons, Edit.apply, con]; omega
  · refine ⟨g'.buf0, g'.buf1, g'.dyn0, g'.dyn1, g'.number, g'.needle, ?_, ?_, g'.out⟩
    · intro x hx
      rcases List.mem_append.1 hx with hx | hx
      · exact g.lines x hx
      · obtain rfl : x = ln := by simpa using hx
        exact hn
    · rw [joinLines_append, joinLines_one, g.total]; simp

theorem step_eol {l k : Nat} (hi : (inp.length : Int) + cfg.growStep ≤ INT_MAX) (hpos : 0 < cfg.growStep) (h : GrepInv dflt K inp (.eol l k) A w μ) :
    StepOk cfg dflt K inp (.eol l k) A w μ (.act (.cmd (.cmd (.op 1 (.appendChar 10))))) := by
  obtain ⟨hk, hkl, done, ln, pend, b0, b1, g, rfl, hs, hc⟩ := h
  have hsh : b1.data.length + 1 ≤ inp.length := by
    have h1 := congrArg List.length g.out
    have h2 := congrArg List.length g.total
    have h3 := selected_length (K 1) done
    rw [joinLines_append, joinLines_one] at h2
    simp only [List.length_append, found, List.length_singleton] at h1 h2
    omega
  have hlen : ((b1.data ++ [10]).length : Int) + cfg.growStep ≤ INT_MAX := by rw [List.length_append, List.length_singleton]; omega
  refine ⟨⟨handle1 g, trivial, fun b e => ?_⟩, ?_⟩
  · rw [g.buf1] at e; cases e; exact ⟨.inr (.inr (.inl hlen)), trivial⟩
  rintro d a B w1 - ⟨⟨rfl, rfl⟩, rfl⟩
  have con : ((HOp.appendChar 10).edit K A.σ 1 b1).content b1 = b1.data ++ [10] := by
    exact content_if_fits rfl (.inr ⟨g.dyn1, by simp only [HOp.edit, Edit.wanted]; omega⟩)
  have g' := g.op1 (cfg := cfg) (dflt := dflt) (.appendChar 10)
  rw [con, ← List.append_assoc, g.out] at g'
  refine ⟨_, fun _ => ?_, hk, by omega, done ++ [ln], pend, b0, ((HOp.appendChar 10).edit K A.σ 1 b1).apply cfg b1, ?_, hs.op1 _, rfl⟩
  · simp only [pot, Edit.apply, con, List.length_append, List.length_singleton]; omega
  · rw [found, selected_append, selected_yes hc, joinLines_append, joinLines_one, ← List.append_assoc]
    exact g'

theorem step_keep {l : Nat} (hi : (inp.length : Int) + cfg.growStep ≤ INT_MAX) (hpos : 0 < cfg.growStep) (h : GrepInv dflt K inp (.keep l) A w μ) :
    StepOk cfg dflt K inp (.keep l) A w μ (.act (.cmd (.op 0 (.assign l)))) := by
  obtain ⟨hl, done, pend, b0, b1, g, rfl, hn, hs⟩ := h
  obtain ⟨hleg, hb⟩ := hs.src (K := K) g.buf0
  have hsh := g.short
  have hedit : ((WOp.assign l).hop A).edit K A.σ 0 b0 = .assign pend := by simp only [WOp.hop, HOp.edit, hb]
  refine ⟨⟨fun i hi => ?_, handle0 g, hleg, fun b e => ?_⟩, ?_⟩
  · obtain rfl : i = l := by simpa [WOp.uses] using hi
    exact hs.fresh
  · rw [g.buf0] at e; cases e; rw [hedit]
    exact ⟨.inr (.inr (.inl (by simp only [Edit.wanted]; omega))), trivial⟩
  rintro d a B w1 - ⟨⟨rfl, rfl⟩, rfl⟩
  have g' := g.op0 (cfg := cfg) (dflt := dflt) ((WOp.assign l).hop A)
  refine ⟨_, fun _ => Nat.lt_succ_self _, done, pend, _, b1, g', ?_, hn, rfl⟩
  rw [hedit]
  exact content_if_fits (e := .assign pend) rfl (.inr ⟨g.dyn0, by simp only [Edit.wanted]; omega⟩)

theorem step_rest {v : Nat} (h : GrepInv dflt K inp (.rest v) A w μ) : StepOk cfg dflt K inp (.rest v) A w μ (.act (.cmd (.view 0))) := by
  obtain ⟨done, pend, b0, b1, g, rfl, hn, hw, rfl⟩ := h
  refine ⟨handle0 g, ?_⟩
  rintro d a B w1 - ⟨⟨rfl, rfl⟩, rfl⟩
  refine ⟨_, fun _ => Nat.lt_succ_self _, g.pos, done, _, b0, b1, g.push _, rfl, hn, hw, ?_⟩
  have := whole_seg g.buf0
  rwa [g.number] at this

theorem step_lastHas {l : Nat} (h : GrepInv dflt K inp (.lastHas l) A w μ) : StepOk cfg dflt K inp (.lastHas l) A w μ (.act (.ask (.contains l 0))) := by
  obtain ⟨hl, done, pend, b0, b1, g, rfl, hn, hw, hs⟩ := h
  refine ⟨contains_fresh g hs, ?_⟩
  rintro d a B w1 - ⟨⟨rfl, r, rfl, hr⟩, rfl⟩
  rw [contains_iff g hs] at hr
  cases r with
  | true => exact ⟨_, fun _ => Nat.lt_succ_self _, hl, done, _, b0, b1, g, rfl, hn, hw, hs, hr.1 rfl⟩
  | false =>
    have hno : ¬ K 1 <:+: pend := fun h => by cases hr.2 h
    refine ⟨_, fun _ => ?_, done, pend, b0, b1, ?_, hw, hn, rfl⟩
    · simp only [pot]; omega
    · rw [foundAll, if_neg hno, List.append_nil]; exact g

theorem step_lastApp {l : Nat} (hi : (inp.length : Int) + cfg.growStep ≤ INT_MAX) (hpos : 0 < cfg.growStep) (h : GrepInv dflt K inp (.lastApp l) A w μ) :
    StepOk cfg dflt K inp (.lastApp l) A w μ (.act (.cmd (.op 1 (.append l)))) := by
  obtain ⟨hl0, done, pend, b0, b1, g, rfl, hn, hw, hs, hc⟩ := h
  obtain ⟨hl, hb⟩ := hs.src (K := K) g.buf0
  have hsh := g.short
  obtain ⟨ok, con⟩ := append_content (cfg := cfg) g.dyn1 (S := pend) (by omega) hpos
  have hedit : ((WOp.append l).hop A).edit K A.σ 1 b1 = .insert b1.data.length pend := by simp only [WOp.hop, HOp.edit, hb]
  refine ⟨⟨fun i hi => ?_, handle1 g, hl, fun b e => ?_⟩, ?_⟩
  · obtain rfl : i = l := by simpa [WOp.uses] using hi
    exact hs.fresh
  · rw [g.buf1] at e; cases e; rw [hedit]; exact ok
  rintro d a B w1 - ⟨⟨rfl, rfl⟩, rfl⟩
  have g' := g.op1 (cfg := cfg) (dflt := dflt) ((WOp.append l).hop A)
  rw [hedit, con, ← List.append_assoc, g.out] at g'
  refine ⟨_, fun _ => ?_, done, pend, b0, (Edit.insert b1.data.length pend).apply cfg b1, ?_, hw, hn, rfl⟩
  · simp only [pot, Edit.apply, con, List.length_append]; omega
  · rw [foundAll, if_pos hc]; exact g'

theorem step_flush {v : Nat} {last : Bool} (h : GrepInv dflt K inp (.flush v last) A w μ) : StepOk cfg dflt K inp (.flush v last) A w μ (.act (.ask (.bufSize 1))) := by
  have nil : ∀ {l : List Byte}, (l.length : Int) = 0 → l = [] := fun h => List.length_eq_zero_iff.1 (by omega)
  cases last with
  | false =>
    obtain ⟨done, pend, b0, b1, g, e, hn, rfl⟩ := h
    refine ⟨⟨(fun i hi => by simp [Query.uses] at hi), b1, g.buf1⟩, ?_⟩
    rintro d a B w1 - ⟨⟨rfl, b, hb, rfl⟩, rfl⟩
    rw [g.buf1] at hb; cases hb
    simp only [Place.next]
    split
    · exact ⟨_, fun _ => Nat.lt_succ_self _, done, pend, b0, b1, g, e, hn, rfl⟩
    · next h => exact ⟨_, fun _ => Nat.lt_succ_self _, done, pend, b0, b1, g, e, hn, fun h' => h (by rw [h']; rfl), rfl⟩
  | true =>
    obtain ⟨done, pend, b0, b1, g, e, hn, rfl⟩ := h
    refine ⟨⟨(fun i hi => by simp [Query.uses] at hi), b1, g.buf1⟩, ?_⟩
    rintro d a B w1 - ⟨⟨rfl, b, hb, rfl⟩, rfl⟩
    rw [g.buf1] at hb; cases hb
    simp only [Place.next]
    split
    · next h => exact ⟨0, fun _ => Nat.succ_pos _, v, done, pend, b0, b1, g, e, hn, nil h, rfl⟩
    · next h => exact ⟨_, fun _ => Nat.lt_succ_self _, done, pend, b0, b1, g, e, hn, fun h' => h (by rw [h']; rfl), rfl⟩

theorem Grepping.wrote {v : Nat} {done : List (List Byte)} {pend o l rest : List Byte} {b0 b1 : Buf} (g : Grepping K inp A w v done pend o b0 b1) (e : b1.data = l ++ rest) :
    Grepping K inp (A.content 1 b1 rest) { w with out := w.out ++ l } v done pend o b0 { b1 with data := rest } :=
  ⟨g.buf0, rfl, g.dyn0, g.dyn1, by simp [Mixed.content, g.number], content_view_const g.needle, g.lines, g.total, by rw [← g.out, e]; simp⟩

theorem step_write {v : Nat} {last : Bool} (h : GrepInv dflt K inp (.write v last) A w μ) : StepOk cfg dflt K inp (.write v last) A w μ (.write 1) := by
  cases last with
  | false =>
    obtain ⟨done, pend, b0, b1, g, e, hn, hne, rfl⟩ := h
    refine ⟨handle1 g, ?_⟩
    rintro d a B w1 hd (⟨e, -⟩ | ⟨b, hb, h⟩)
    · rw [g.buf1] at e; cases e
    rw [g.buf1] at hb; cases hb
    rcases h with ⟨rfl, rfl, rfl, rfl⟩ | ⟨j, l, rest, rfl, e1, e2, rfl, rfl, rfl⟩
    · exact ⟨_, fun h => absurd rfl h, done, pend, b0, b1, g, e, hn, rfl⟩
    · have hj : j ≠ 0 := fun h => hd (by rw [h])
      have := List.length_pos_iff.2 hne
      refine ⟨_, fun _ => ?_, done, pend, b0, _, g.wrote e1, e, hn, rfl⟩
      have := congrArg List.length e1
      simp only [pot, List.length_append] at this ⊢
      omega
  | true =>
    obtain ⟨done, pend, b0, b1, g, e, hn, hne, rfl⟩ := h
    refine ⟨handle1 g, ?_⟩
    rintro d a B w1 hd (⟨e, -⟩ | ⟨b, hb, h⟩)
    · rw [g.buf1] at e; cases e
    rw [g.buf1] at hb; cases hb
    rcases h with ⟨rfl, rfl, rfl, rfl⟩ | ⟨j, l, rest, rfl, e1, e2, rfl, rfl, rfl⟩
    · exact ⟨_, fun h => absurd rfl h, done, pend, b0, b1, g, e, hn, rfl⟩
    · have hj : j ≠ 0 := fun h => hd (by rw [h])
      have := List.length_pos_iff.2 hne
      refine ⟨_, fun _ => ?_, done, pend, b0, _, g.wrote e1, e, hn, rfl⟩
      have := congrArg List.length e1
      simp only [List.length_append] at this ⊢
      omega

theorem grep_step (hd : dflt.Ok) (hK : K 0 = [10]) (hi : (inp.length : Int) + cfg.growStep ≤ INT_MAX) (hpos : 0 < cfg.growStep) {p : Place} {x : IAct} (h : GrepInv dflt K inp p A w μ)
    (hx : p.act = some x) : StepOk cfg dflt K inp p A w μ x := by
  cases p with
  | empty0 => cases hx; exact step_empty0 hd h
  | empty1 => cases hx; exact step_empty1 hd h
  | needle => cases hx; exact step_needle hd h
  | top v => cases hx; exact step_top h
  | grow v n => cases hx; exact step_grow hi hpos h
  | read v => cases hx; exact step_read h
  | src v => cases hx; exact step_src h
  | split v k => cases hx; exact step_split hK h
  | valid l k => cases hx; exact step_valid h
  | has l k => cases hx; exact step_has h
  | app l k => cases hx; exact step_app hi hpos h
  | eol l k => cases hx; exact step_eol hi hpos h
  | keep l => cases hx; exact step_keep hi hpos h
  | rest v => cases hx; exact step_rest h
  | lastHas l => cases hx; exact step_lastHas h
  | lastApp l => cases hx; exact step_lastApp hi hpos h
  | flush v last => cases hx; exact step_flush h
  | write v last => cases hx; exact step_write h
  | stop => cases hx

end

end CStr
