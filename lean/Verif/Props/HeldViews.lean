import Verif.Lemmas.HeldViews
import Verif.Props.BufHist
import Verif.Lemmas.IntCode
/-! Property C80: programs that keep views in variables while buffers are created, changed and destroyed. -/
namespace CStr

/-- C80. A legal program that mixes buffer functions, view functions and views it has kept ends in a state that represents what the program means in terms of byte strings and places in them
(Spec/HeldViews.lean): the buffers have the contents, and every view that is not stale is exactly the place (text, offset, length) that it should be. It cannot go wrong in any other way
than by an illegal answer of the allocator. -/
theorem C80_refinement {cfg : Cfg} (hcfg : cfg.Ok) {dflt : Alloc} {K : Nat → List Byte} {ka : Nat → Addr} {A : Mixed} {X : MState} (r : MRep K ka A X) (cs : List MCmd)
    (hl : LegalMixed cfg dflt K cs A) :
    runMixed cfg dflt K ka cs X = .env .alloc ∨
      ∃ A' X', MRun cfg dflt K cs A A' ∧ runMixed cfg dflt K ka cs X = .ok X' ∧ MRep K ka A' X' := by
  induction cs generalizing A X with
  | nil => exact .inr ⟨A, X, .nil A, rfl, r⟩
  | cons c cs ih =>
    rcases mcmd_ok hcfg r hl.1 with h | ⟨B, Y, h1, h2, h3⟩
    · left; simp only [runMixed, h]; rfl
    · simp only [runMixed, h2, Res.bind_ok]
      rcases ih h3 (hl.2 B h1) with h | ⟨A', X', i1, i2, i3⟩
      · exact .inl h
      · exact .inr ⟨A', X', .cons h1 i1, i2, i3⟩

/-- The start of a program: no buffers, no views, the discriminator of `strview_split_line` is 0. -/
def Mixed.start : Mixed := ⟨fun _ => none, [], 0⟩

def MState.start (s : St) : MState := ⟨fun _ => 0, s, [], 0⟩

theorem Start.mrep {K : Nat → List Byte} {ka : Nat → Addr} {s : St} (h : Start K ka s) : MRep K ka .start (.start s) :=
  ⟨h.rep, rfl, fun _ => rfl, rfl, .inl rfl⟩

/-- A view that is not stale shows, in the memory as it is now, the bytes it should. -/
theorem MRep.shows {K : Nat → List Byte} {ka : Nat → Addr} {A : Mixed} {X : MState} (r : MRep K ka A X) {i : Nat} {t : Ref} {a n : Nat} (h : A.view i = .part t a n) :
    ViewOf X.s.mem (viewAt X.views i) (((t.text K A.σ).drop a).take n) := by
  have hf : A.Fresh i := by rw [Mixed.Fresh, h]; intro h; cases h
  rcases r.held hf with ⟨i1, -⟩ | ⟨t', a', n', i1, i2, i3, i4, i5, i6⟩
  · rw [h] at i1; cases i1
  · rw [h] at i1; cases i1
    simpa only [Mixed.text, h, AView.bytes] using i5

/-- C80. After a legal program every buffer variable shows its content, and every view the program keeps, if its buffer has not been changed since, shows its part of the text it was taken from. -/
theorem C80_contents {cfg : Cfg} (hcfg : cfg.Ok) {dflt : Alloc} {K : Nat → List Byte} {ka : Nat → Addr} {s : St} (hs : Start K ka s) (cs : List MCmd)
    (hl : LegalMixed cfg dflt K cs .start) :
    runMixed cfg dflt K ka cs (.start s) = .env .alloc ∨
      ∃ A X, MRun cfg dflt K cs .start A ∧ runMixed cfg dflt K ka cs (.start s) = .ok X ∧ X.views.length = A.views.length ∧
        (∀ h b, A.σ h = some (.buf b) → ∃ v, strbuf_view X.s.mem (some (X.ρ h)) = .ok v ∧ ViewOf X.s.mem v b.data) ∧
        (∀ i t a n, A.view i = .part t a n → ViewOf X.s.mem (viewAt X.views i) (((t.text K A.σ).drop a).take n)) ∧
        (∀ i, A.view i = .null → viewAt X.views i = .invalid) := by
  rcases C80_refinement hcfg hs.mrep cs hl with e | ⟨A, X, h1, h2, r⟩
  · exact .inl e
  · refine .inr ⟨A, X, h1, h2, r.number, ?_, fun i t a n h => r.shows h, ?_⟩
    · intro h b hb
      have hba : BufAt X.s (X.ρ h) b := r.rep.obj h _ hb
      exact ⟨_, by rw [strbuf_view, deref_some hba.pos]; exact hba.view, hba.viewOf⟩
    · intro i h
      have := r.views i
      rw [h] at this
      exact this

/-! ### The meaning is unambiguous -/

theorem lead_unique {p : Byte → Prop} {a a' b b' : List Byte} (e : a ++ b = a' ++ b') (h : ∀ x ∈ a, p x) (h' : ∀ x ∈ a', p x) (g : ∀ x, b.head? = some x → ¬ p x)
    (g' : ∀ x, b'.head? = some x → ¬ p x) : a = a' ∧ b = b' :=
  run_unique e h (fun x t hx => g x (by rw [hx]; rfl)) h' (fun x t hx => g' x (by rw [hx]; rfl))

theorem TrimStartTo.unique {cs l : List Byte} {c c' : Cut} (h : TrimStartTo cs l c) (h' : TrimStartTo cs l c') : c = c' := by
  obtain ⟨p, r, h1, h2, h3, rfl⟩ := h
  obtain ⟨p', r', h1', h2', h3', rfl⟩ := h'
  obtain ⟨rfl, rfl⟩ := lead_unique (p := fun x => x ∈ cs) (h1.symm.trans h1') h2 h2' (fun x hx => h3 x hx) (fun x hx => h3' x hx)
  rfl

theorem TrimEndTo.unique {cs l : List Byte} {c c' : Cut} (h : TrimEndTo cs l c) (h' : TrimEndTo cs l c') : c = c' := by
  obtain ⟨r, p, h1, h2, h3, rfl⟩ := h
  obtain ⟨r', p', h1', h2', h3', rfl⟩ := h'
  have e : p.reverse ++ r.reverse = p'.reverse ++ r'.reverse := by
    rw [← List.reverse_append, ← List.reverse_append, ← h1, ← h1']
  obtain ⟨-, e2⟩ := lead_unique (p := fun x => x ∈ cs) e (fun x hx => h2 x (by simpa using hx)) (fun x hx => h2' x (by simpa using hx))
    (fun x hx => h3 x (by simpa [List.head?_reverse] using hx)) (fun x hx => h3' x (by simpa [List.head?_reverse] using hx))
  rw [List.reverse_inj.1 e2]

theorem TrimTo.unique {cs l : List Byte} {c c' : Cut} (h : TrimTo cs l c) (h' : TrimTo cs l c') : c = c' := by
  obtain ⟨p, r, s, h1, h2, h3, h4, h5, h6, rfl⟩ := h
  obtain ⟨p', r', s', h1', h2', h3', h4', h5', h6', rfl⟩ := h'
  rw [List.append_assoc] at h1 h1'
  have hd : ∀ {r s : List Byte}, (∀ x, r.head? = some x → x ∉ cs) → (r = [] → s = []) → ∀ x, (r ++ s).head? = some x → x ∉ cs := by
    intro r s h h' x hx
    cases r with
    | nil => rw [h' rfl] at hx; cases hx
    | cons a r => exact h x hx
  obtain ⟨rfl, e⟩ := lead_unique (p := fun x => x ∈ cs) (h1.symm.trans h1') h2 h2' (fun x hx => hd h4 h6 x hx) (fun x hx => hd h4' h6' x hx)
  have := TrimEndTo.unique (l := r ++ s) ⟨r, s, rfl, h3, h5, rfl⟩ ⟨r', s', e, h3', h5', rfl⟩
  simp only [Option.some.injEq, Prod.mk.injEq, true_and] at this
  rw [this]

theorem FindFirstTo.unique {fold : Byte → Byte} {n l : List Byte} {c c' : Cut} (h : FindFirstTo fold n l c) (h' : FindFirstTo fold n l c') : c = c' := by
  rcases h with ⟨i, h1, h2, rfl⟩ | ⟨h1, rfl⟩ <;> rcases h' with ⟨j, g1, g2, rfl⟩ | ⟨g1, rfl⟩
  · rw [Nat.le_antisymm (h2 _ g1) (g2 _ h1)]
  · exact absurd h1 (g1 _)
  · exact absurd g1 (h1 _)
  · rfl

theorem FindLastTo.unique {fold : Byte → Byte} {n l : List Byte} {c c' : Cut} (h : FindLastTo fold n l c) (h' : FindLastTo fold n l c') : c = c' := by
  rcases h with ⟨i, h1, h2, rfl⟩ | ⟨h1, rfl⟩ <;> rcases h' with ⟨j, g1, g2, rfl⟩ | ⟨g1, rfl⟩
  · rw [Nat.le_antisymm (g2 _ h1) (h2 _ g1)]
  · exact absurd h1 (g1 _)
  · exact absurd g1 (h1 _)
  · rfl

theorem SplitFirstTo.unique {x : Bool} {ds l : List Byte} {c c' s s' : Cut} (h : SplitFirstTo x ds l c s) (h' : SplitFirstTo x ds l c' s') : c = c' ∧ s = s' := by
  rcases h with ⟨p, d, q, h1, h2, rfl, rfl⟩ | ⟨h1, rfl, rfl⟩ <;> rcases h' with ⟨p', d', q', g1, g2, rfl, rfl⟩ | ⟨g1, rfl, rfl⟩
  · have e := Nat.le_antisymm (h2 _ _ _ g1) (g2 _ _ _ h1)
    have := List.append_inj (h1.1.symm.trans g1.1) e
    obtain ⟨rfl, e2⟩ := this
    obtain ⟨-, rfl⟩ := List.cons.inj e2
    exact ⟨rfl, rfl⟩
  · exact absurd h1 (g1 _ _ _)
  · exact absurd g1 (h1 _ _ _)
  · exact ⟨rfl, rfl⟩

theorem SplitLastTo.unique {x : Bool} {ds l : List Byte} {c c' s s' : Cut} (h : SplitLastTo x ds l c s) (h' : SplitLastTo x ds l c' s') : c = c' ∧ s = s' := by
  rcases h with ⟨p, d, q, h1, h2, rfl, rfl⟩ | ⟨h1, rfl, rfl⟩ <;> rcases h' with ⟨p', d', q', g1, g2, rfl, rfl⟩ | ⟨g1, rfl, rfl⟩
  · have e := Nat.le_antisymm (g2 _ _ _ h1) (h2 _ _ _ g1)
    have := List.append_inj (h1.1.symm.trans g1.1) e
    obtain ⟨rfl, e2⟩ := this
    obtain ⟨-, rfl⟩ := List.cons.inj e2
    exact ⟨rfl, rfl⟩
  · exact absurd h1 (g1 _ _ _)
  · exact absurd g1 (h1 _ _ _)
  · exact ⟨rfl, rfl⟩

theorem SplitIndexTo.unique {n : Int} {l : List Byte} {c c' s s' : Cut} (h : SplitIndexTo n l c s) (h' : SplitIndexTo n l c' s') : c = c' ∧ s = s' := by
  obtain ⟨a, b, h1, h⟩ := h
  obtain ⟨a', b', h1', h'⟩ := h'
  have e := congrArg List.length h1
  have e' := congrArg List.length h1'
  rw [List.length_append] at e e'
  rcases h with ⟨g1, g2, rfl, rfl⟩ | ⟨g1, g2, rfl, rfl⟩ <;> rcases h' with ⟨g1', g2', rfl, rfl⟩ | ⟨g1', g2', rfl, rfl⟩
  · rw [show a.length = a'.length by omega, show b.length = b'.length by omega]; exact ⟨rfl, rfl⟩
  · omega
  · omega
  · rw [show a.length = a'.length by omega, show b.length = b'.length by omega]; exact ⟨rfl, rfl⟩

theorem SplitLineTo.unique {e : Byte} {l : List Byte} {c c' s s' : Cut} {x x' : Byte} (h : SplitLineTo e l c s x) (h' : SplitLineTo e l c' s' x') :
    c = c' ∧ s = s' ∧ x = x' := by
  rcases h with ⟨li, te, re, h1, rfl, rfl, rfl⟩ | ⟨h1, rfl, rfl, rfl⟩ <;> rcases h' with ⟨li', te', re', g1, rfl, rfl, rfl⟩ | ⟨g1, rfl, rfl, rfl⟩
  · obtain ⟨rfl, rfl, rfl⟩ := h1.unique g1
    exact ⟨rfl, rfl, rfl⟩
  · exact absurd g1 (firstLine_not_noEol h1)
  · exact absurd h1 (firstLine_not_noEol g1)
  · exact ⟨rfl, rfl, rfl⟩

theorem DequoteTo.unique {l : List Byte} {c c' : Cut} (h : DequoteTo l c) (h' : DequoteTo l c') : c = c' := by
  rcases h with ⟨rfl, rfl⟩ | ⟨q, t, n, mid, rfl, h1, h2, rfl⟩ <;> rcases h' with ⟨h3, rfl⟩ | ⟨q', t', n', mid', h3, h1', h2', rfl⟩
  · rfl
  · cases h3
  · cases h3
  · cases h3
    obtain ⟨rfl, rfl⟩ := h1.unique h1' h2 h2'
    rfl

/-- C80. What a command does is determined by what the program holds. -/
theorem C80_deterministic {cfg : Cfg} {dflt : Alloc} {K : Nat → List Byte} {cs : List MCmd} {A B B' : Mixed} (h : MRun cfg dflt K cs A B) (h' : MRun cfg dflt K cs A B') : B = B' := by
  have one : ∀ {c : MCmd} {A B B' : Mixed}, c.Step cfg dflt K A B → c.Step cfg dflt K A B' → B = B' := by
    intro c A B B' h h'
    cases c with
    | cmd c | op x o | create x j o | view x | const k => cases h; cases h'; rfl
    | call c =>
      cases c with
      | sub j b e => cases h; cases h'; rfl
      | trim j k => obtain ⟨x, h, rfl⟩ := h; obtain ⟨x', h', rfl⟩ := h'; rw [h.unique h']
      | trimStart j k => obtain ⟨x, h, rfl⟩ := h; obtain ⟨x', h', rfl⟩ := h'; rw [h.unique h']
      | trimEnd j k => obtain ⟨x, h, rfl⟩ := h; obtain ⟨x', h', rfl⟩ := h'; rw [h.unique h']
      | findFirst j k | findFirstNocase j k | findLast j k | findLastNocase j k =>
        obtain ⟨x, h, rfl⟩ := h; obtain ⟨x', h', rfl⟩ := h'
        rcases h with ⟨h1, rfl⟩ | ⟨h1, h⟩ <;> rcases h' with ⟨g1, rfl⟩ | ⟨g1, h'⟩
        · rfl
        · exact absurd h1 g1
        · exact absurd g1 h1
        · rw [h.unique h']
      | dequote j => obtain ⟨x, h, rfl⟩ := h; obtain ⟨x', h', rfl⟩ := h'; rw [h.unique h']
      | splitFirst j d x | splitLast j d x | splitIndex j d =>
        obtain ⟨x, y, h, rfl⟩ := h; obtain ⟨x', y', h', rfl⟩ := h'
        rw [(h.unique h').1, (h.unique h').2]
      | splitLeft j k | splitRight j k =>
        simp only [MCmd.Step, VCall.Step] at h h'
        split at h
        · next o e => rw [e] at h'; cases h; cases h'; rfl
        · next e => rw [e] at h'; cases h; cases h'; rfl
      | pop j => cases h; cases h'; rfl
      | splitLine j | splitLineNull j =>
        obtain ⟨x, y, e, h, rfl⟩ := h; obtain ⟨x', y', e', h', rfl⟩ := h'
        obtain ⟨rfl, rfl, rfl⟩ := h.unique h'
        rfl
  induction h with
  | nil => cases h'; rfl
  | cons h1 h2 ih =>
    cases h' with
    | cons g1 g2 =>
      cases one h1 g1
      exact ih g2

/-! ### Views of buffers that are not changed -/

/-- The buffer variables a command changes. -/
def MCmd.changes : MCmd → List Nat
  | .cmd c => c.changes
  | .op h _ => [h]
  | .create h _ _ => [h]
  | .view _ | .const _ | .call _ => []

/-- The view variables a command changes: the source of a split and of a pop. -/
def MCmd.moves : MCmd → List Nat
  | .call (.splitFirst i _ _) | .call (.splitLast i _ _) | .call (.splitIndex i _) | .call (.splitLeft i _) | .call (.splitRight i _) | .call (.pop i)
  | .call (.splitLine i) | .call (.splitLineNull i) => [i]
  | _ => []

theorem view_set_ne {A : Mixed} {i j : Nat} {a : AView} (h : j ≠ i) {σ : AState} {e : Byte} : (Mixed.mk σ (A.views.set i a) e).view j = A.view j := by
  simp only [Mixed.view, List.getD_eq_getElem?_getD, List.getElem?_set_ne (Ne.symm h)]

theorem view_append_lt {vs ws : List AView} {j : Nat} (h : j < vs.length) {σ : AState} {e : Byte} : (Mixed.mk σ (vs ++ ws) e).view j = vs.getD j .null := by
  simp only [Mixed.view, List.getD_eq_getElem?_getD, List.getElem?_append_left h]

theorem leaves_of_not_mem {cfg : Cfg} {K : Nat → List Byte} {σ : AState} {h i n : Nat} {c : Cmd} (hc : h ∉ c.changes) : c.leaves cfg K σ h i n = true := by
  simp only [Cmd.leaves, decide_eq_true hc, Bool.true_or]

/-- A command leaves the views that it does not change, whose buffer it does not change, as they are; and it leaves the text they are in as it is. -/
theorem step_leaves {cfg : Cfg} {dflt : Alloc} {K : Nat → List Byte} {A B : Mixed} {c : MCmd} (hs : c.Step cfg dflt K A B) {i : Nat} {t : Ref} {a n : Nat}
    (hi : A.view i = .part t a n) (hm : i ∉ c.moves) (hc : ∀ h, t = .buf h → h ∉ c.changes) :
    B.view i = .part t a n ∧ t.text K B.σ = t.text K A.σ := by
  have hlt : i < A.views.length := by
    rcases Nat.lt_or_ge i A.views.length with h | h
    · exact h
    · simp only [Mixed.view, List.getD_eq_getElem?_getD, List.getElem?_eq_none h] at hi
      cases hi
  have run : ∀ d : Cmd, (∀ h, t = .buf h → h ∉ d.changes) → (A.run cfg dflt K d).view i = .part t a n ∧ t.text K (A.run cfg dflt K d).σ = t.text K A.σ := by
    intro d hd
    rw [run_view, hi]
    cases t with
    | const k => exact ⟨rfl, rfl⟩
    | buf h =>
      have := hd h rfl
      refine ⟨by simp only [AView.after, if_pos (leaves_of_not_mem this)], ?_⟩
      simp only [Ref.text, AState.data, Mixed.run, Cmd.step_frame this]
  have keep : ∀ (j : Nat) (x : Cut), (A.keep j x).view i = .part t a n ∧ t.text K (A.keep j x).σ = t.text K A.σ := by
    intro j x
    refine ⟨?_, rfl⟩
    rw [Mixed.keep, view_append_lt hlt]; exact hi
  have split : ∀ (j : Nat) (x y : Cut) (e : Byte), i ≠ j →
      ({ A.keepSplit j x y with eol := e } : Mixed).view i = .part t a n ∧ t.text K (A.keepSplit j x y).σ = t.text K A.σ := by
    intro j x y e h
    refine ⟨?_, rfl⟩
    simp only [Mixed.keepSplit]
    rw [view_append_lt (by rw [List.length_set]; exact hlt)]
    exact (view_set_ne (A := A) (σ := A.σ) (e := e) h).trans hi
  cases c with
  | cmd c => cases hs; exact run c hc
  | op h o => cases hs; exact run _ hc
  | create h j o => cases hs; exact run _ hc
  | view h =>
    cases hs
    exact ⟨by rw [view_append_lt hlt]; exact hi, rfl⟩
  | const k =>
    cases hs
    exact ⟨by rw [view_append_lt hlt]; exact hi, rfl⟩
  | call c =>
    cases c with
    | sub j b e => cases hs; exact keep _ _
    | trim j k | trimStart j k | trimEnd j k | findFirst j k | findFirstNocase j k | findLast j k | findLastNocase j k =>
      obtain ⟨x, -, rfl⟩ := hs
      exact keep _ _
    | dequote j =>
      obtain ⟨x, -, rfl⟩ := hs
      exact keep _ _
    | splitFirst j d x | splitLast j d x | splitIndex j d =>
      obtain ⟨x, y, -, rfl⟩ := hs
      exact split _ _ _ A.eol (by simpa [MCmd.moves] using hm)
    | splitLeft j k | splitRight j k =>
      have hne : i ≠ j := by simpa [MCmd.moves] using hm
      simp only [MCmd.Step, VCall.Step] at hs
      split at hs <;> cases hs <;> exact split _ _ _ A.eol hne
    | pop j =>
      cases hs
      exact ⟨(view_set_ne (by simpa [MCmd.moves] using hm)).trans hi, rfl⟩
    | splitLine j =>
      obtain ⟨x, y, e, -, rfl⟩ := hs
      exact split _ _ _ e (by simpa [MCmd.moves] using hm)
    | splitLineNull j =>
      obtain ⟨x, y, e, -, rfl⟩ := hs
      exact split _ _ _ A.eol (by simpa [MCmd.moves] using hm)

/-- The machine's view is not touched either. -/
theorem run_leaves {cfg : Cfg} {dflt : Alloc} {K : Nat → List Byte} {A B : Mixed} {cs : List MCmd} (hs : MRun cfg dflt K cs A B) {i : Nat} {t : Ref} {a n : Nat}
    (hi : A.view i = .part t a n) (hm : ∀ c ∈ cs, i ∉ c.moves) (hc : ∀ c ∈ cs, ∀ h, t = .buf h → h ∉ c.changes) :
    B.view i = .part t a n ∧ t.text K B.σ = t.text K A.σ := by
  induction hs with
  | nil => exact ⟨hi, rfl⟩
  | cons h1 h2 ih =>
    obtain ⟨i1, i2⟩ := step_leaves h1 hi (hm _ (by simp)) (hc _ (by simp))
    obtain ⟨j1, j2⟩ := ih i1 (fun c hc => hm c (by simp [hc])) (fun c h => hc c (by simp [h]))
    exact ⟨j1, j2.trans i2⟩

/-- C80. A view of a buffer shows the same bytes for as long as that buffer is not changed: whatever a legal program does to other buffers (creation, growth, destruction, even with a moving
allocator) and with other views, in the memory after it the view shows what it showed before. A view of a constant shows the same bytes for ever. -/
theorem C80_view_stays {cfg : Cfg} (hcfg : cfg.Ok) {dflt : Alloc} {K : Nat → List Byte} {ka : Nat → Addr} {A : Mixed} {X X' : MState} (r : MRep K ka A X) (cs : List MCmd)
    (hl : LegalMixed cfg dflt K cs A) (he : runMixed cfg dflt K ka cs X = .ok X') {i : Nat} {t : Ref} {a n : Nat} (hi : A.view i = .part t a n)
    (hm : ∀ c ∈ cs, i ∉ c.moves) (hc : ∀ c ∈ cs, ∀ h, t = .buf h → h ∉ c.changes) :
    ∃ l, l.length = n ∧ ViewOf X.s.mem (viewAt X.views i) l ∧ ViewOf X'.s.mem (viewAt X'.views i) l := by
  rcases C80_refinement hcfg r cs hl with e | ⟨A', X1, h1, h2, r'⟩
  · rw [he] at e; cases e
  · rw [he] at h2; cases h2
    obtain ⟨j1, j2⟩ := run_leaves h1 hi hm hc
    have s1 := r.shows hi
    have s2 := r'.shows j1
    rw [j2] at s2
    refine ⟨_, ?_, s1, s2⟩
    have := r.views i
    rw [hi] at this
    obtain ⟨-, g, -⟩ := this
    simp only [List.length_take, List.length_drop]
    omega

/-! A program, to show that the hypotheses can be met. -/

/-- "ab" in buffer 0 and a view of it; buffer 1 is made from that view, "l" is appended to it and the view of buffer 0 is inserted before the "l"; then buffer 1 is destroyed, and the view
of buffer 0 is still used. -/
def heldDemo : List MCmd := [
  .cmd (.createInit 0 (.const 0) none),
  .view 0,
  .const 1,
  .create 1 0 (some ⟨7, 9⟩),
  .op 1 (.append 1),
  .view 1,
  .call (.sub 2 2 3),
  .op 1 (.insertBefore 3 0),
  .view 1,
  .cmd (.destroy 1),
  .call (.splitIndex 0 1),
  .op 0 (.assign 0)]

theorem heldDemo_legal : LegalMixed exCfg ⟨0, 1⟩ demoK heldDemo .start := by
  have hb : ∀ {b : Buf}, ∀ o, some (Obj.buf b) = some o → ∃ b, o = .buf b := fun o h => ⟨_, (Option.some.inj h).symm⟩
  have hf : ∀ {A : Mixed} {i : Nat} (t : Ref) (a n : Nat), A.view i = .part t a n → A.Fresh i := by
    intro A i t a n h h'; rw [h] at h'; cases h'
  refine ⟨⟨rfl, ⟨by decide, by decide, by decide⟩, trivial⟩, ?_⟩
  rintro B rfl
  refine ⟨hb, ?_⟩
  rintro B rfl
  refine ⟨trivial, ?_⟩
  rintro B rfl
  refine ⟨⟨hf (.buf 0) 0 2 rfl, rfl, ⟨by decide, by decide, by decide⟩, ⟨_, rfl⟩, Nat.le_refl 2⟩, ?_⟩
  rintro B rfl
  refine ⟨⟨?_, hb, ⟨trivial, Nat.le_refl 1⟩, ?_⟩, ?_⟩
  · intro i hi
    simp only [WOp.uses, List.mem_cons, List.not_mem_nil, or_false] at hi
    subst hi; exact hf (.const 1) 0 1 rfl
  · intro b e; cases e; exact ⟨.inl rfl, (by decide : INT_MIN ≤ 2 ∧ 2 ≤ INT_MAX)⟩
  rintro B rfl
  refine ⟨hb, ?_⟩
  rintro B rfl
  refine ⟨⟨?_, by decide⟩, ?_⟩
  · intro i hi
    simp only [VCall.uses, List.mem_cons, List.not_mem_nil, or_false] at hi
    subst hi; exact hf (.buf 1) 0 3 rfl
  rintro B rfl
  refine ⟨⟨?_, hb, ⟨⟨⟨_, rfl⟩, Nat.le_refl 3⟩, ⟨_, rfl⟩, Nat.le_refl 2⟩, ?_⟩, ?_⟩
  · intro i hi
    simp only [WOp.uses, List.mem_cons, List.not_mem_nil, or_false] at hi
    rcases hi with rfl | rfl
    · exact hf (.buf 1) 2 1 rfl
    · exact hf (.buf 0) 0 2 rfl
  · intro b e; cases e; exact ⟨.inl rfl, (by decide : INT_MIN ≤ 2 ∧ 2 ≤ INT_MAX)⟩
  rintro B rfl
  refine ⟨hb, ?_⟩
  rintro B rfl
  refine ⟨hb, ?_⟩
  rintro B rfl
  refine ⟨⟨?_, by decide⟩, ?_⟩
  · intro i hi
    simp only [VCall.uses, List.mem_cons, List.not_mem_nil, or_false] at hi
    subst hi; exact hf (.buf 0) 0 2 rfl
  rintro B ⟨c, s, h, rfl⟩
  obtain ⟨x, y, h1, ⟨h2, h3, rfl, rfl⟩ | ⟨h2, -⟩⟩ := h
  · have e1 : x.length = 1 := by
      have h3 : (x.length : Int) = min 1 ((2 : Nat) : Int) := h3
      omega
    have e2 : y.length = 1 := by
      have := congrArg List.length h1
      rw [List.length_append, e1] at this
      have e : ([97, 98] : List Byte).length = 1 + y.length := this
      simp only [List.length_cons, List.length_nil] at e
      omega
    refine ⟨⟨?_, hb, ?_, ?_⟩, fun _ _ => trivial⟩
    · intro i hi
      simp only [WOp.uses, List.mem_cons, List.not_mem_nil, or_false] at hi
      subst hi
      exact hf (.buf 0) (0 + x.length) y.length rfl
    · refine ⟨⟨_, rfl⟩, ?_⟩
      rw [e1, e2]; exact Nat.le_refl 2
    · intro b e; cases e; exact ⟨.inl rfl, trivial⟩
  · exact absurd h2 (by decide)

theorem heldDemo_runs : (runMixed exCfg ⟨0, 1⟩ demoK demoKa heldDemo (.start demoSt)).isOk = true := by decide +kernel

/-- View 0 in the middle of the program, after buffer 1 was created from it, grown, and destroyed: still "ab". -/
example : ∃ X, runMixed exCfg ⟨0, 1⟩ demoK demoKa (heldDemo.take 10) (.start demoSt) = .ok X ∧ ViewOf X.s.mem (viewAt X.views 0) [97, 98] ∧ X.ρ 1 = 0 := by
  have hl : LegalMixed exCfg ⟨0, 1⟩ demoK (heldDemo.take 10) .start := by
    have : ∀ {cs ds : List MCmd} {A : Mixed}, LegalMixed exCfg ⟨0, 1⟩ demoK (cs ++ ds) A → LegalMixed exCfg ⟨0, 1⟩ demoK cs A := by
      intro cs
      induction cs with
      | nil => intros; trivial
      | cons c cs ih => intro ds A h; exact ⟨h.1, fun B hB => ih (h.2 B hB)⟩
    exact this (ds := heldDemo.drop 10) (by rw [List.take_append_drop]; exact heldDemo_legal)
  rcases C80_refinement exCfg_ok demoStart.mrep _ hl with e | ⟨A, X, h1, h2, r⟩
  · have : (runMixed exCfg ⟨0, 1⟩ demoK demoKa (heldDemo.take 10) (.start demoSt)).isOk = true := by decide +kernel
    rw [e] at this; cases this
  · refine ⟨X, h2, ?_⟩
    have inv : ∀ {c : MCmd} {cs : List MCmd} {A B : Mixed}, MRun exCfg ⟨0, 1⟩ demoK (c :: cs) A B → ∃ C, c.Step exCfg ⟨0, 1⟩ demoK A C ∧ MRun exCfg ⟨0, 1⟩ demoK cs C B := by
      intro c cs A B h; cases h with | cons h1 h2 => exact ⟨_, h1, h2⟩
    obtain ⟨_, rfl, h1⟩ := inv h1
    obtain ⟨_, rfl, h1⟩ := inv h1
    obtain ⟨_, rfl, h1⟩ := inv h1
    obtain ⟨_, rfl, h1⟩ := inv h1
    obtain ⟨_, rfl, h1⟩ := inv h1
    obtain ⟨_, rfl, h1⟩ := inv h1
    obtain ⟨_, rfl, h1⟩ := inv h1
    obtain ⟨_, rfl, h1⟩ := inv h1
    obtain ⟨_, rfl, h1⟩ := inv h1
    obtain ⟨_, rfl, h1⟩ := inv h1
    cases h1
    exact ⟨r.shows (i := 0) (t := .buf 0) (a := 0) (n := 2) rfl, r.rep.null 1 rfl⟩

/-- C80, why a view must not be used after its buffer was changed: the buffer moves when it grows, and reading through the old view is undefined. -/
theorem C80_stale_view_is_ub :
    ∃ cs : List MCmd, LegalMixed exCfg ⟨0, 1⟩ demoK cs .start ∧ (∀ A, MRun exCfg ⟨0, 1⟩ demoK cs .start A → A.view 0 = .stale) ∧
      (runMixed exCfg ⟨0, 1⟩ demoK demoKa cs (.start demoSt)).isOk = true ∧
      ∃ w, runMixed exCfg ⟨0, 1⟩ demoK demoKa (cs ++ [.call (.dequote 0)]) (.start demoSt) = .ub w := by
  have hb : ∀ {b : Buf}, ∀ o, some (Obj.buf b) = some o → ∃ b, o = .buf b := fun o h => ⟨_, (Option.some.inj h).symm⟩
  refine ⟨[.cmd (.createInit 0 (.const 0) none), .view 0, .cmd (.op 0 (.append (.const 1)))], ?_, ?_, by decide +kernel, ?_⟩
  · refine ⟨⟨rfl, ⟨by decide, by decide, by decide⟩, trivial⟩, ?_⟩
    rintro B rfl
    refine ⟨hb, ?_⟩
    rintro B rfl
    refine ⟨⟨hb, trivial, ?_⟩, fun _ _ => trivial⟩
    intro b e; cases e; exact ⟨.inl rfl, (by decide : INT_MIN ≤ 2 ∧ 2 ≤ INT_MAX)⟩
  · intro A h
    cases h with | cons h1 h => cases h with | cons h2 h => cases h with | cons h3 h => cases h; cases h1; cases h2; cases h3; rfl
  · have : (match runMixed exCfg ⟨0, 1⟩ demoK demoKa ([.cmd (.createInit 0 (.const 0) none), .view 0, .cmd (.op 0 (.append (.const 1)))] ++ [.call (.dequote 0)])
        (.start demoSt) with | .ub _ => true | _ => false) = true := by decide +kernel
    split at this
    · next w h => exact ⟨w, h⟩
    · cases this

end CStr
