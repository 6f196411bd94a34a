import Verif.Spec.Tasks
import Verif.Lemmas.Filter
import Verif.Props.Threads
/-! What an action does depends on, and changes, the variables it names and those its views are of. -/
namespace CStr

/-- The view is not of a buffer outside of `P`. -/
def AView.In (P : Nat → Prop) : AView → Prop
  | .part (.buf k) _ _ => P k
  | _ => True

def Mixed.Own (P : Nat → Prop) (A : Mixed) : Prop := ∀ v ∈ A.views, v.In P

/-- The same views, other variables. -/
def Mixed.on (A : Mixed) (σ : AState) : Mixed := { A with σ := σ }

section
variable {P : Nat → Prop} {cfg : Cfg} {dflt : Alloc} {K : Nat → List Byte} {A B : Mixed} {σ : AState}

theorem Mixed.Own.view (o : A.Own P) (i : Nat) : (A.view i).In P := by
  simp only [Mixed.view, List.getD_eq_getElem?_getD]
  cases h : A.views[i]? with
  | none => trivial
  | some v => exact o v (List.mem_of_getElem? h)

theorem AView.In.cut {v : AView} (h : v.In P) (c : Cut) : (v.cut c).In P := by
  cases v with
  | part r i n => cases c <;> cases r <;> first | exact h | trivial
  | null => trivial
  | stale => trivial

theorem AView.In.src {v : AView} (h : v.In P) : ∀ k ∈ v.src.slots, P k := by
  intro k hk
  cases v with
  | part r i n => cases r with
    | buf j => simp only [AView.src, Src.slots, List.mem_singleton] at hk; subst hk; exact h
    | const j => cases hk
  | null => cases hk
  | stale => cases hk

theorem AView.bytes_congr (a : Agree P A.σ σ) {v : AView} (h : v.In P) : v.bytes K A.σ = v.bytes K σ := by
  cases v with
  | part r i n => cases r with
    | buf j => simp only [AView.bytes, Ref.text, a.data h]
    | const j => rfl
  | null => rfl
  | stale => rfl

theorem Mixed.text_on (o : A.Own P) (a : Agree P A.σ σ) (i : Nat) : (A.on σ).text K i = A.text K i := (AView.bytes_congr a (o.view i)).symm

theorem Mixed.view_on (i : Nat) : (A.on σ).view i = A.view i := rfl

theorem Mixed.Own.append (o : A.Own P) {v : AView} (h : v.In P) : Mixed.Own P { A with views := A.views ++ [v] } := by
  intro u hu
  rcases List.mem_append.1 hu with h1 | h1
  · exact o u h1
  · rw [List.mem_singleton.1 h1]; exact h

theorem Mixed.Own.set (o : A.Own P) {v : AView} (h : v.In P) (i : Nat) : Mixed.Own P { A with views := A.views.set i v } := by
  intro u hu
  rcases List.mem_or_eq_of_mem_set hu with h1 | rfl
  · exact o u h1
  · exact h

theorem Mixed.Own.keep (o : A.Own P) (i : Nat) (c : Cut) : (A.keep i c).Own P := o.append ((o.view i).cut c)
theorem Mixed.Own.shorten (o : A.Own P) (i : Nat) (c : Cut) : (A.shorten i c).Own P := o.set ((o.view i).cut c) i
theorem Mixed.Own.keepSplit (o : A.Own P) (i : Nat) (c s : Cut) : (A.keepSplit i c s).Own P :=
  (o.set ((o.view i).cut s) i).append (A := { A with views := A.views.set i ((A.view i).cut s) }) ((o.view i).cut c)

/-- The effect of an action on other variables with the same content is the same, and it stays inside of `P`. -/
structure Local (P : Nat → Prop) (A : Mixed) (σ : AState) (B : Mixed) (τ : AState) : Prop where
  agree : Agree P B.σ τ
  own : B.Own P
  frame : ∀ h, ¬ P h → B.σ h = A.σ h

theorem Local.same (o : A.Own P) (a : Agree P A.σ σ) : Local P A σ A σ := ⟨a, o, fun _ _ => rfl⟩

theorem vcall_legal (o : A.Own P) (a : Agree P A.σ σ) {c : VCall} : c.Legal K A ↔ c.Legal K (A.on σ) := by
  cases c <;> simp only [VCall.Legal, Mixed.text_on o a, Mixed.Fresh, Mixed.view_on]

theorem vcall_on (o : A.Own P) (a : Agree P A.σ σ) {c : VCall} (h : c.Step K A B) : c.Step K (A.on σ) (B.on σ) ∧ Local P A σ B σ := by
  cases c with
  | sub i b e =>
    obtain rfl := h
    refine ⟨?_, a, o.keep _ _, fun _ _ => rfl⟩
    simp only [VCall.Step, Mixed.text_on o a]; rfl
  | trim i j | trimStart i j | trimEnd i j | findFirst i j | findFirstNocase i j | findLast i j | findLastNocase i j | dequote i =>
    obtain ⟨c, h1, rfl⟩ := h
    refine ⟨?_, a, o.keep _ _, fun _ _ => rfl⟩
    simp only [VCall.Step, Mixed.text_on o a, Mixed.view_on]
    exact ⟨c, h1, rfl⟩
  | splitFirst i d x | splitLast i d x | splitIndex i n =>
    obtain ⟨c, s, h1, rfl⟩ := h
    refine ⟨?_, a, o.keepSplit _ _ _, fun _ _ => rfl⟩
    simp only [VCall.Step, Mixed.text_on o a, Mixed.view_on]
    exact ⟨c, s, h1, rfl⟩
  | splitLeft i j | splitRight i j =>
    simp only [VCall.Step, Mixed.text_on o a, Mixed.view_on] at h ⊢
    split at h
    · subst h; exact ⟨rfl, a, o.keepSplit _ _ _, fun _ _ => rfl⟩
    · subst h; exact ⟨rfl, a, o.keepSplit _ _ _, fun _ _ => rfl⟩
  | pop i =>
    obtain rfl := h
    refine ⟨?_, a, o.shorten _ _, fun _ _ => rfl⟩
    simp only [VCall.Step, Mixed.text_on o a]; rfl
  | splitLine i =>
    obtain ⟨c, s, e, h1, rfl⟩ := h
    refine ⟨?_, a, o.keepSplit _ _ _, fun _ _ => rfl⟩
    simp only [VCall.Step, Mixed.text_on o a]
    exact ⟨c, s, e, h1, rfl⟩
  | splitLineNull i =>
    obtain ⟨c, s, e, h1, rfl⟩ := h
    refine ⟨?_, a, o.keepSplit _ _ _, fun _ _ => rfl⟩
    simp only [VCall.Step, Mixed.text_on o a]
    exact ⟨c, s, e, h1, rfl⟩

/-! ### Buffer commands -/

theorem leaves_congr (a : Agree P A.σ σ) {c : Cmd} (hc : ∀ k ∈ c.slots, P k) {h i n : Nat} (hh : P h) : c.leaves cfg K A.σ h i n = c.leaves cfg K σ h i n := by
  cases c with
  | op k o =>
    simp only [Cmd.leaves, ← a h hh]
    congr 1
    split
    · next b _ => rw [HOp.edit_congr a hh (fun k hk => hc k (by simp [Cmd.slots, hk])) b]
    · rfl
  | _ => rfl

theorem AView.after_congr (a : Agree P A.σ σ) {c : Cmd} (hc : ∀ k ∈ c.slots, P k) {v : AView} (hv : v.In P) : v.after cfg K A.σ c = v.after cfg K σ c := by
  cases v with
  | part r i n => cases r with
    | buf j => simp only [AView.after, leaves_congr a hc hv]
    | const j => rfl
  | null => rfl
  | stale => rfl

theorem AView.In.after {v : AView} (h : v.In P) (c : Cmd) (τ : AState) : (v.after cfg K τ c).In P := by
  cases v with
  | part r i n => cases r with
    | buf j =>
      simp only [AView.after]
      split
      · exact h
      · trivial
    | const j => trivial
  | null => trivial
  | stale => trivial

theorem Mixed.Own.map (o : A.Own P) {f : AView → AView} (hf : ∀ v, v.In P → (f v).In P) (τ : AState) : Mixed.Own P ⟨τ, A.views.map f, A.eol⟩ := by
  intro u hu
  obtain ⟨v, h1, rfl⟩ := List.mem_map.1 hu
  exact hf v (o v h1)

theorem run_on (o : A.Own P) (a : Agree P A.σ σ) {c : Cmd} (hc : ∀ k ∈ c.slots, P k) :
    (A.on σ).run cfg dflt K c = (A.run cfg dflt K c).on (c.step cfg dflt K σ) ∧ Local P A σ (A.run cfg dflt K c) (c.step cfg dflt K σ) := by
  constructor
  · simp only [Mixed.run, Mixed.on, Mixed.mk.injEq, true_and, and_true]
    exact List.map_congr_left fun v hv => (AView.after_congr a hc (o v hv)).symm
  · refine ⟨Cmd.step_congr a hc, o.map (fun v hv => hv.after c A.σ) _, fun h hh => ?_⟩
    exact Cmd.step_other (P := fun k => ¬ P k) (fun k hk hn => hn (hc k hk)) h hh

theorem hop_slots (o : A.Own P) {x : WOp} : ∀ k ∈ (x.hop A).slots, P k := by
  intro k hk
  cases x with
  | append i | prepend i | insertAtIndex _ i | assign i | strip i => exact (o.view i).src k hk
  | insertBefore d i | insertAfter d i =>
    rcases List.mem_append.1 hk with h | h
    · exact (o.view d).src k h
    · exact (o.view i).src k h
  | cat is =>
    simp only [WOp.hop, HOp.slots, List.mem_flatMap, List.mem_map] at hk
    obtain ⟨_, ⟨i, _, rfl⟩, h⟩ := hk
    exact (o.view i).src k h
  | printf ps | appendPrintf ps =>
    simp only [WOp.hop, HOp.slots, List.mem_flatMap, List.mem_map] at hk
    obtain ⟨_, ⟨p, _, rfl⟩, h⟩ := hk
    cases p with
    | inl l => cases h
    | inr i => exact (o.view i).src k h

theorem hop_on {x : WOp} : x.hop (A.on σ) = x.hop A := by cases x <;> rfl

theorem op_slots (o : A.Own P) {h : Nat} (hh : P h) {x : WOp} : ∀ k ∈ (Cmd.op h (x.hop A)).slots, P k := by
  intro k hk
  rcases List.mem_cons.1 hk with rfl | h1
  · exact hh
  · exact hop_slots o k h1

theorem create_slots (o : A.Own P) {h : Nat} (hh : P h) {i : Nat} {al : Option Alloc} : ∀ k ∈ (Cmd.createInit h (A.view i).src al).slots, P k := by
  intro k hk
  rcases List.mem_cons.1 hk with rfl | h1
  · exact hh
  · exact (o.view i).src k h1

theorem mcmd_legal (o : A.Own P) (a : Agree P A.σ σ) {c : MCmd} (hc : ∀ k ∈ c.slots, P k) : c.Legal cfg dflt K A ↔ c.Legal cfg dflt K (A.on σ) := by
  cases c with
  | cmd c => exact Cmd.legal_congr a hc
  | op h x =>
    simp only [MCmd.Legal, hop_on, Mixed.Fresh, Mixed.view_on]
    rw [Cmd.legal_congr (σ := A.σ) (σ' := σ) a (op_slots o (hc h (by simp [MCmd.slots])))]
    exact Iff.rfl
  | create h i al =>
    simp only [MCmd.Legal, Mixed.Fresh, Mixed.view_on]
    rw [Cmd.legal_congr (σ := A.σ) (σ' := σ) a (create_slots o (hc h (by simp [MCmd.slots])))]
    exact Iff.rfl
  | view h => exact a.handle (hc h (by simp [MCmd.slots]))
  | const k => exact Iff.rfl
  | call c => exact vcall_legal o a

theorem whole_congr (a : Agree P A.σ σ) {h : Nat} (hh : P h) : A.σ.whole h = σ.whole h := by simp only [AState.whole, a h hh]

theorem whole_in {h : Nat} (hh : P h) (τ : AState) : (τ.whole h).In P := by
  simp only [AState.whole]
  split
  · exact hh
  · trivial

theorem mcmd_on (o : A.Own P) (a : Agree P A.σ σ) {c : MCmd} (hc : ∀ k ∈ c.slots, P k) (h : c.Step cfg dflt K A B) : ∃ τ, c.Step cfg dflt K (A.on σ) (B.on τ) ∧ Local P A σ B τ := by
  cases c with
  | cmd c =>
    obtain rfl := h
    obtain ⟨h1, h2⟩ := run_on (cfg := cfg) (dflt := dflt) (K := K) o a hc
    exact ⟨_, h1.symm, h2⟩
  | op k x =>
    obtain rfl := h
    obtain ⟨h1, h2⟩ := run_on (cfg := cfg) (dflt := dflt) (K := K) o a (op_slots o (hc k (by simp [MCmd.slots])) (x := x))
    exact ⟨_, by simp only [MCmd.Step, hop_on]; exact h1.symm, h2⟩
  | create k i al =>
    obtain rfl := h
    obtain ⟨h1, h2⟩ := run_on (cfg := cfg) (dflt := dflt) (K := K) o a (create_slots o (hc k (by simp [MCmd.slots])) (i := i) (al := al))
    exact ⟨_, h1.symm, h2⟩
  | view k =>
    obtain rfl := h
    refine ⟨σ, ?_, a, o.append (whole_in (hc k (by simp [MCmd.slots])) _), fun _ _ => rfl⟩
    simp only [MCmd.Step, Mixed.on, whole_congr a (hc k (by simp [MCmd.slots]))]
  | const k =>
    obtain rfl := h
    exact ⟨σ, rfl, a, o.append trivial, fun _ _ => rfl⟩
  | call c =>
    obtain ⟨h1, h2⟩ := vcall_on o a h
    exact ⟨σ, h1, h2⟩

/-! ### Questions -/

theorem query_legal (o : A.Own P) (a : Agree P A.σ σ) {q : Query} (hq : ∀ k ∈ q.slots, P k) : q.Legal K A ↔ q.Legal K (A.on σ) := by
  cases q with
  | bufSize h | capacity h | bufChar h k | strChar h k =>
    simp only [Query.Legal, Mixed.Fresh, Mixed.view_on, a h (hq h (by simp [Query.slots]))]; exact Iff.rfl
  | _ => simp only [Query.Legal, Mixed.Fresh, Mixed.view_on, Mixed.text_on o a]

theorem convStep_on {i : Nat} {l ds rest : List Byte} {inRange : Prop} {d val : Int} {a' : Answer} (o : A.Own P) (a : Agree P A.σ σ) (h : ConvStep A i l ds rest inRange d val a' B) :
    ConvStep (A.on σ) i l ds rest inRange d val a' (B.on σ) ∧ Local P A σ B σ := by
  rcases h with ⟨h1, h2, rfl⟩ | ⟨h1, h2, h3, rfl⟩ | ⟨h1, h2, h3, rfl⟩
  · exact ⟨.inl ⟨h1, h2, rfl⟩, .same o a⟩
  · exact ⟨.inr (.inl ⟨h1, h2, h3, rfl⟩), .same o a⟩
  · exact ⟨.inr (.inr ⟨h1, h2, h3, rfl⟩), a, o.shorten _ _, fun _ _ => rfl⟩

theorem query_on (o : A.Own P) (a : Agree P A.σ σ) {q : Query} (hq : ∀ k ∈ q.slots, P k) {a' : Answer} (h : q.Step K A a' B) : q.Step K (A.on σ) a' (B.on σ) ∧ Local P A σ B σ := by
  cases q with
  | valid i | viewSize i | viewChar i k | isMatch i j | isMatchNocase i j | startsWith i j | startsWithNocase i j | contains i j | containsNocase i j | compare i j =>
    obtain ⟨rfl, h⟩ := h
    refine ⟨?_, .same o a⟩
    simp only [Query.Step, Mixed.text_on o a, Mixed.view_on]
    exact ⟨trivial, h⟩
  | isNull k | bufSize k | capacity k | bufChar k i | strChar k i =>
    obtain ⟨rfl, h⟩ := h
    refine ⟨?_, .same o a⟩
    rw [a k (hq k (by simp [Query.slots]))] at h
    exact ⟨rfl, h⟩
  | popChar i =>
    simp only [Query.Step, Mixed.text_on o a] at h ⊢
    rcases h with ⟨h1, h2, rfl⟩ | ⟨c, t, h1, h2, rfl⟩
    · exact ⟨.inl ⟨h1, h2, rfl⟩, .same o a⟩
    · exact ⟨.inr ⟨c, t, h1, h2, rfl⟩, a, o.shorten _ _, fun _ _ => rfl⟩
  | unsigned t i op d =>
    simp only [Query.Step, Mixed.text_on o a] at h ⊢
    obtain ⟨l1, l2, base, ds, n, rest, h1, h2, h3, h4⟩ := h
    obtain ⟨h5, h6⟩ := convStep_on o a h4
    exact ⟨⟨l1, l2, base, ds, n, rest, h1, h2, h3, h5⟩, h6⟩
  | signed t i op d =>
    simp only [Query.Step, Mixed.text_on o a] at h ⊢
    obtain ⟨l1, l2, l3, neg, base, ds, n, rest, h1, h2, h3, h4, h5⟩ := h
    obtain ⟨h6, h7⟩ := convStep_on o a h5
    exact ⟨⟨l1, l2, l3, neg, base, ds, n, rest, h1, h2, h3, h4, h6⟩, h7⟩

/-! ### Input, output and the accessories -/

theorem AView.In.within {v : AView} (h : v.In P) (k n : Nat) : (v.within k n).In P := by
  cases v with
  | part r i m => cases r with
    | buf j =>
      simp only [AView.within]
      split
      · trivial
      · exact h
    | const j => trivial
  | null => trivial
  | stale => trivial

theorem AView.In.lost {v : AView} (h : v.In P) (k : Nat) : (v.lost k).In P := by
  cases v with
  | part r i m => cases r with
    | buf j =>
      simp only [AView.lost]
      split
      · trivial
      · exact h
    | const j => trivial
  | null => trivial
  | stale => trivial

theorem set_frame {h : Nat} (hh : P h) (o : Option Obj) : ∀ k, ¬ P k → A.σ.set h o k = A.σ k := fun k hk => AState.set_ne _ _ fun e => hk (e ▸ hh)

theorem content_on (o : A.Own P) (a : Agree P A.σ σ) {h : Nat} (hh : P h) (b : Buf) (l : List Byte) :
    ∃ τ, (A.on σ).content h b l = (A.content h b l).on τ ∧ Local P A σ (A.content h b l) τ :=
  ⟨_, rfl, a.set _ _, o.map (fun _ hv => hv.within h l.length) _, set_frame hh _⟩

theorem moved_on (o : A.Own P) (a : Agree P A.σ σ) {h : Nat} (hh : P h) (b : Buf) : ∃ τ, (A.on σ).moved h b = (A.moved h b).on τ ∧ Local P A σ (A.moved h b) τ :=
  ⟨_, rfl, a.set _ _, o.map (fun _ hv => hv.lost h) _, set_frame hh _⟩

theorem crypted_on (o : A.Own P) (a : Agree P A.σ σ) {h : Nat} (hh : P h) (b : Buf) (l : List Byte) :
    ∃ τ, (A.on σ).crypted h b l = (A.crypted h b l).on τ ∧ Local P A σ (A.crypted h b l) τ := by
  simp only [Mixed.crypted]
  split
  · exact moved_on o a hh _
  · exact content_on o a hh _ _

theorem area_congr (a : Agree P A.σ σ) {k n : Nat} (hk : P k) : A.σ.Area k n ↔ σ.Area k n := by simp only [AState.Area, a k hk]

theorem crypt_congr (a : Agree P A.σ σ) {h key iv k : Nat} {b : Buf} (h1 : P h) (h2 : P key) (h3 : P iv) (h4 : P k) : A.σ.Crypt h key iv k b ↔ σ.Crypt h key iv k b := by
  simp only [AState.Crypt, AState.Key, AState.Area, a h h1, a key h2, a iv h3, a k h4]

theorem iact_legal (o : A.Own P) (a : Agree P A.σ σ) {x : IAct} (hx : ∀ k ∈ x.slots, P k) : x.Legal cfg dflt K A ↔ x.Legal cfg dflt K (A.on σ) := by
  cases x with
  | act x => cases x with
    | cmd c => exact mcmd_legal o a hx
    | ask q => exact query_legal o a hx
  | read h | write h => exact a.handle (hx h (by simp [IAct.slots]))
  | writeView i => exact Iff.rfl
  | pack h k o' t x =>
    simp only [IAct.Legal]
    rw [area_congr a (hx k (by simp [IAct.slots])), a h (hx h (by simp [IAct.slots]))]
    exact Iff.rfl
  | unpack i k o' t =>
    simp only [IAct.Legal, Mixed.text_on o a, Mixed.Fresh, Mixed.view_on]
    rw [area_congr a (hx k (by simp [IAct.slots]))]
    exact Iff.rfl
  | encrypt h key iv k =>
    simp only [IAct.Legal]
    exact exists_congr fun b => crypt_congr a (hx h (by simp [IAct.slots])) (hx key (by simp [IAct.slots])) (hx iv (by simp [IAct.slots])) (hx k (by simp [IAct.slots]))
  | decrypt h key iv k =>
    simp only [IAct.Legal]
    refine exists_congr fun b => and_congr (crypt_congr a (hx h (by simp [IAct.slots])) (hx key (by simp [IAct.slots])) (hx iv (by simp [IAct.slots])) (hx k (by simp [IAct.slots]))) ?_
    rw [a.data (hx key (by simp [IAct.slots])), a.data (hx iv (by simp [IAct.slots]))]
    exact Iff.rfl

theorem iact_on (o : A.Own P) (a : Agree P A.σ σ) {x : IAct} (hx : ∀ k ∈ x.slots, P k) {d : Option Nat} {w w1 : World} {a' : Answer} (h : x.Step cfg dflt K d A w a' B w1) :
    ∃ τ, x.Step cfg dflt K d (A.on σ) w a' (B.on τ) w1 ∧ Local P A σ B τ := by
  cases x with
  | act x =>
    obtain ⟨h, rfl⟩ := h
    cases x with
    | cmd c =>
      obtain ⟨rfl, h⟩ := h
      obtain ⟨τ, h1, h2⟩ := mcmd_on o a hx h
      exact ⟨τ, ⟨⟨rfl, h1⟩, rfl⟩, h2⟩
    | ask q =>
      obtain ⟨h1, h2⟩ := query_on o a hx h
      exact ⟨σ, ⟨h1, rfl⟩, h2⟩
  | read k =>
    have hk := hx k (by simp [IAct.slots])
    simp only [IAct.Step]
    rcases h with ⟨h1, h2, rfl, h3⟩ | ⟨b, h1, ⟨h2, h3, rfl, h4⟩ | ⟨j, l, rest, h2, h3, h4, h5, rfl, h6⟩⟩
    · exact ⟨σ, .inl ⟨by rw [← h1]; exact (a k hk).symm, h2, rfl, h3⟩, .same o a⟩
    · exact ⟨σ, .inr ⟨b, by rw [← h1]; exact (a k hk).symm, .inl ⟨h2, h3, rfl, h4⟩⟩, .same o a⟩
    · obtain ⟨τ, e, hl⟩ := content_on o a hk b (b.data ++ l)
      exact ⟨τ, .inr ⟨b, by rw [← h1]; exact (a k hk).symm, .inr ⟨j, l, rest, h2, h3, h4, h5, e.symm, h6⟩⟩, hl⟩
  | write k =>
    have hk := hx k (by simp [IAct.slots])
    simp only [IAct.Step]
    rcases h with ⟨h1, h2, rfl, h3⟩ | ⟨b, h1, ⟨h2, h3, rfl, h4⟩ | ⟨j, l, rest, h2, h3, h4, h5, rfl, h6⟩⟩
    · exact ⟨σ, .inl ⟨by rw [← h1]; exact (a k hk).symm, h2, rfl, h3⟩, .same o a⟩
    · exact ⟨σ, .inr ⟨b, by rw [← h1]; exact (a k hk).symm, .inl ⟨h2, h3, rfl, h4⟩⟩, .same o a⟩
    · obtain ⟨τ, e, hl⟩ := content_on o a hk b rest
      exact ⟨τ, .inr ⟨b, by rw [← h1]; exact (a k hk).symm, .inr ⟨j, l, rest, h2, h3, h4, h5, e.symm, h6⟩⟩, hl⟩
  | writeView i =>
    simp only [IAct.Step, Mixed.text_on o a, Mixed.view_on] at h ⊢
    rcases h with ⟨h1, h2, rfl, h3⟩ | ⟨h1, ⟨h2, h3, rfl, h4⟩ | ⟨j, l, rest, h2, h3, h4, h5, h6, rfl⟩⟩
    · exact ⟨σ, .inl ⟨h1, h2, rfl, h3⟩, .same o a⟩
    · exact ⟨σ, .inr ⟨h1, .inl ⟨h2, h3, rfl, h4⟩⟩, .same o a⟩
    · exact ⟨σ, .inr ⟨h1, .inr ⟨j, l, rest, h2, h3, h4, h5, h6, rfl⟩⟩, a, o.shorten _ _, fun _ _ => rfl⟩
  | pack k k' o' t x =>
    have hk := hx k (by simp [IAct.slots])
    obtain ⟨rfl, rfl, b, h1, rfl⟩ := h
    simp only [IAct.Step]
    have hb : (A.on σ).σ k = some (.buf b) := by rw [← h1]; exact (a k hk).symm
    split
    · next hin =>
      obtain ⟨τ, e, hl⟩ := content_on o a hk b ((Edit.insert b.data.length (wire o' t x)).content b)
      exact ⟨τ, ⟨trivial, trivial, b, hb, by rw [if_pos hin]; exact e.symm⟩, hl⟩
    · next hin =>
      obtain ⟨τ, e, hl⟩ := moved_on o a hk ((Edit.insert b.data.length (wire o' t x)).apply cfg b)
      exact ⟨τ, ⟨trivial, trivial, b, hb, by rw [if_neg hin]; exact e.symm⟩, hl⟩
  | unpack i k o' t =>
    simp only [IAct.Step, Mixed.text_on o a] at h ⊢
    obtain ⟨rfl, x, rest, h1, h2, h3, rfl⟩ := h
    exact ⟨σ, ⟨rfl, x, rest, h1, h2, h3, rfl⟩, a, o.shorten _ _, fun _ _ => rfl⟩
  | encrypt k key iv k' =>
    have hk := hx k (by simp [IAct.slots])
    obtain ⟨rfl, rfl, b, out, h1, h2, rfl⟩ := h
    rw [a.data (hx key (by simp [IAct.slots])), a.data (hx iv (by simp [IAct.slots]))] at h2
    obtain ⟨τ, e, hl⟩ := crypted_on o a hk b out
    exact ⟨τ, ⟨rfl, rfl, b, out, by rw [← h1]; exact (a k hk).symm, h2, e.symm⟩, hl⟩
  | decrypt k key iv k' =>
    have hk := hx k (by simp [IAct.slots])
    obtain ⟨rfl, rfl, b, out, h1, h2, rfl⟩ := h
    rw [a.data (hx key (by simp [IAct.slots])), a.data (hx iv (by simp [IAct.slots]))] at h2
    obtain ⟨τ, e, hl⟩ := crypted_on o a hk b out
    exact ⟨τ, ⟨rfl, rfl, b, out, by rw [← h1]; exact (a k hk).symm, h2, e.symm⟩, hl⟩

end

/-! ### The variables of the machine -/

/-- The variables outside of `l` are unchanged. -/
def Vars.Keeps (l : List Nat) (ρ ρ' : Vars) : Prop := ∀ k, k ∉ l → ρ' k = ρ k

theorem Vars.Keeps.refl {l : List Nat} {ρ : Vars} : ρ.Keeps l ρ := fun _ _ => rfl
theorem Vars.Keeps.set {l : List Nat} {ρ ρ' : Vars} (h : ρ.Keeps l ρ') {k : Nat} (hk : k ∈ l) (p : Addr) : ρ.Keeps l (ρ'.set k p) := by
  intro j hj
  have : j ≠ k := fun e => hj (e ▸ hk)
  rw [Vars.set_ne _ _ this, h j hj]
theorem Vars.Keeps.setPtr {l : List Nat} {ρ ρ' : Vars} (h : ρ.Keeps l ρ') {k : Nat} (hk : k ∈ l) (p : Option Addr) : ρ.Keeps l (ρ'.setPtr k p) := by
  cases p with
  | none => exact h
  | some p => exact h.set hk p

section
variable {cfg : Cfg} {dflt : Alloc} {K : Nat → List Byte} {ka : Nat → Addr}

theorem cmd_vars (c : Cmd) (ρ : Vars) (s : St) : Res.Sat (fun r : Vars × St => ρ.Keeps c.slots r.1) (c.exec cfg dflt K ka ρ s) := by
  cases c with
  | createEmpty h n o => exact .bind fun _ _ => .ok (Vars.Keeps.refl.set (by simp [Cmd.slots]) _)
  | createInit h x o => exact .bind fun _ _ => .bind fun _ _ => .ok (Vars.Keeps.refl.set (by simp [Cmd.slots]) _)
  | createFixed h k n => exact .bind fun _ _ => .ok ((Vars.Keeps.refl.set (by simp [Cmd.slots]) _).set (by simp [Cmd.slots]) _)
  | destroy h => exact .bind fun _ _ => .ok (Vars.Keeps.refl.setPtr (by simp [Cmd.slots]) _)
  | toCstr h k => exact .bind fun _ _ => .ok ((Vars.Keeps.refl.setPtr (by simp [Cmd.slots]) _).set (by simp [Cmd.slots]) _)
  | freeStr k al => exact .bind fun _ _ => .ok (Vars.Keeps.refl.set (by simp [Cmd.slots]) _)
  | op h o => exact .bind fun _ _ => .bind fun _ _ => .ok (Vars.Keeps.refl.setPtr (by simp [Cmd.slots]) _)

theorem mcmd_vars (c : MCmd) (X : MState) : Res.Sat (fun Y : MState => X.ρ.Keeps c.slots Y.ρ) (c.exec cfg dflt K ka X) := by
  cases c with
  | cmd c => exact .bind' (cmd_vars c X.ρ X.s) fun _ h => .ok h
  | op h o => exact .bind fun _ _ => .ok (Vars.Keeps.refl.setPtr (by simp [MCmd.slots]) _)
  | create h i o => exact .bind fun _ _ => .ok (Vars.Keeps.refl.set (by simp [MCmd.slots]) _)
  | view h => exact .bind fun _ _ => .ok .refl
  | const k => exact .ok .refl
  | call c => exact .bind fun _ _ => .ok .refl

theorem converted_vars (X : MState) (i : Nat) (r : Int × Option Int × Option View) : Res.Sat (fun r : Answer × MState => r.2.ρ = X.ρ) (converted X i r) := by
  rcases r with ⟨e, _ | d, _ | v⟩ <;> first | exact .env | exact .ok rfl

theorem query_vars (q : Query) (X : MState) : Res.Sat (fun r : Answer × MState => r.2.ρ = X.ρ) (q.ask X) := by
  cases q with
  | valid i | viewSize i | isNull k => exact .ok rfl
  | viewChar i k | isMatch i j | isMatchNocase i j | startsWith i j | startsWithNocase i j | contains i j | containsNocase i j | compare i j | bufSize k | capacity k | bufChar k i | strChar k i =>
    exact .bind fun _ _ => .ok rfl
  | popChar i =>
    refine .bind fun r _ => ?_
    rcases r with ⟨c, _ | v⟩ <;> first | exact .env | exact .ok rfl
  | unsigned t i o d => exact .bind fun _ _ => converted_vars X i _
  | signed t i o d => exact .bind fun _ _ => converted_vars X i _

theorem iact_vars (x : IAct) (d : Option Nat) (X : MState) (w : World) : Res.Sat (fun r : Answer × MState × World => X.ρ.Keeps x.slots r.2.1.ρ) (x.exec cfg dflt K ka d X w) := by
  cases x with
  | act x =>
    refine .bind' (P := fun r => X.ρ.Keeps (IAct.act x).slots r.2.ρ) ?_ fun r h => .ok h
    cases x with
    | cmd c => exact .bind' (mcmd_vars c X) fun _ h => .ok h
    | ask q => exact ⟨fun r e => by rw [(query_vars q X).1 r e]; exact .refl⟩
  | read h => exact .bind fun _ _ => .ok .refl
  | write h => exact .bind fun _ _ => .ok (Vars.Keeps.refl.setPtr (by simp [IAct.slots]) _)
  | writeView i =>
    refine .bind fun r _ => ?_
    rcases r with ⟨n, _ | v, out⟩ <;> first | exact .env | exact .ok .refl
  | pack h k o t x => exact .bind fun _ _ => .ok (Vars.Keeps.refl.setPtr (by simp [IAct.slots]) _)
  | unpack i k o t => exact .bind fun _ _ => .ok .refl
  | encrypt h key iv k => exact .bind fun _ _ => .ok (Vars.Keeps.refl.setPtr (by simp [IAct.slots]) _)
  | decrypt h key iv k => exact .bind fun _ _ => .ok (Vars.Keeps.refl.setPtr (by simp [IAct.slots]) _)

/-- A view of a variable in `P` is the same where these variables are the same. -/
theorem ViewRep.congr {P : Nat → Prop} {σ τ : AState} {ρ ρ' : Vars} {a : AView} {v : View} (hv : ViewRep K ka σ ρ a v) (ha : a.In P) (h : Agree P σ τ) (hρ : ∀ k, P k → ρ' k = ρ k) :
    ViewRep K ka τ ρ' a v := by
  cases a with
  | null => exact hv
  | stale => trivial
  | part r i n => cases r with
    | const k => exact hv
    | buf k =>
      obtain ⟨⟨b, hb⟩, h2, h3⟩ := hv
      refine ⟨⟨b, by rw [← h k ha]; exact hb⟩, ?_, ?_⟩
      · simp only [Ref.text] at h2 ⊢; rw [← h.data ha]; exact h2
      · simp only [Ref.addr] at h3 ⊢; rw [hρ k ha]; exact h3

end

/-- A program that names the variables in `P` only leaves the others alone. -/
theorem iplays_frame {cfg : Cfg} {dflt : Alloc} {K : Nat → List Byte} {p : IProgram} {P : Nat → Prop} {os : Nat → Option Nat} (hp : ∀ t x, p t = some x → ∀ h ∈ x.slots, P h) {n : Nat} {t t' : List Answer} {A A' : Mixed} {w w' : World} (o : A.Own P)
    (h : IPlays cfg dflt K os p n t A w t' A' w') : ∀ k, ¬ P k → A'.σ k = A.σ k := by
  induction h with
  | zero => exact fun _ _ => rfl
  | stop _ => exact fun _ _ => rfl
  | next hx hs' _ ih =>
    obtain ⟨τ, -, hl⟩ := iact_on (σ := _) o (fun _ _ => rfl) (hp _ _ hx) hs'
    exact fun k hk => (ih hl.own k hk).trans (hl.frame k hk)

end CStr
