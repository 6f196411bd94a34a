import Verif.Spec.Instances
import Verif.Lemmas.Tasks
/-! A program does with other variables what it does with its own. -/
namespace CStr

def AView.rename (f : Nat → Nat) : AView → AView
  | .part r i n => .part (r.rename f) i n
  | .null => .null
  | .stale => .stale

section
variable {f : Nat → Nat} {cfg : Cfg} {dflt : Alloc} {K : Nat → List Byte} {σ : AState}

theorem ref_text (r : Ref) : (r.rename f).text K σ = r.text K (σ ∘ f) := by cases r <;> rfl
theorem ref_there (r : Ref) : (r.rename f).There σ ↔ r.There (σ ∘ f) := by cases r <;> exact Iff.rfl
theorem ref_inj (hf : f.Injective) {r r' : Ref} : r.rename f = r'.rename f ↔ r = r' := by
  cases r <;> cases r' <;> simp [Ref.rename, hf.eq_iff]

theorem src_bytes (x : Src) : (x.rename f).bytes K σ = x.bytes K (σ ∘ f) := by
  cases x with
  | part r i n => simp only [Src.rename, Src.bytes, ref_text]
  | _ => rfl

theorem src_place (hf : f.Injective) (x : Src) (h : Nat) : (x.rename f).placeIn σ (f h) = x.placeIn (σ ∘ f) h := by
  cases x with
  | sub k b e => simp only [Src.rename, Src.placeIn, hf.eq_iff]; rfl
  | part r i n =>
    have : r.rename f = .buf (f h) ↔ r = .buf h := ref_inj hf (r' := .buf h)
    simp only [Src.rename, Src.placeIn, this]
  | _ => rfl

theorem src_own (hf : f.Injective) (x : Src) (h : Nat) : (x.rename f).own σ (f h) = x.own (σ ∘ f) h := by
  simp only [Src.own, src_place hf]; rfl

theorem src_legal (x : Src) : (x.rename f).Legal K σ ↔ x.Legal K (σ ∘ f) := by
  cases x with
  | part r i n => simp only [Src.rename, Src.Legal, ref_text, ref_there]
  | _ => exact Iff.rfl

theorem csrc_bytes (x : CSrc) : (x.rename f).bytes K σ = x.bytes K (σ ∘ f) := by cases x <;> rfl

theorem csrc_legal (x : CSrc) : (x.rename f).Legal K σ ↔ x.Legal K (σ ∘ f) := by
  simp only [CSrc.Legal, csrc_bytes]
  cases x <;> exact Iff.rfl

theorem csrc_outside (hf : f.Injective) (x : CSrc) (h : Nat) : (x.rename f).outside (f h) ↔ x.outside h := by
  cases x with
  | tail k i => exact hf.ne_iff
  | _ => exact Iff.rfl

theorem piece_bytes (x : Piece) : (x.rename f).bytes K σ = x.bytes K (σ ∘ f) := by
  cases x with
  | text l => rfl
  | arg x => simp only [Piece.rename, Piece.bytes, src_bytes]

theorem piece_legal (hf : f.Injective) (x : Piece) (h : Nat) : (x.rename f).Legal K σ (f h) ↔ x.Legal K (σ ∘ f) h := by
  cases x with
  | text l => exact Iff.rfl
  | arg x => simp only [Piece.rename, Piece.Legal, src_legal, src_own hf]

theorem hop_edit (hf : f.Injective) (o : HOp) (h : Nat) (b : Buf) : (o.rename f).edit K σ (f h) b = o.edit K (σ ∘ f) h b := by
  cases o with
  | cat xs =>
    simp only [HOp.rename, HOp.edit, List.map_map, List.any_map]
    congr 1
    · exact List.map_congr_left fun x _ => src_bytes x
    · congr 1; funext x; exact src_own hf x h
  | printf ps | appendPrintf ps =>
    simp only [HOp.rename, HOp.edit, List.map_map]
    congr 2
    exact List.map_congr_left fun x _ => piece_bytes x
  | _ => simp only [HOp.rename, HOp.edit, src_bytes, csrc_bytes, src_place hf]

theorem hop_args (hf : f.Injective) (o : HOp) (h : Nat) : (o.rename f).Args K σ (f h) ↔ o.Args K (σ ∘ f) h := by
  cases o with
  | cat xs => simp only [HOp.rename, HOp.Args, List.forall_mem_map, src_legal]
  | printf ps | appendPrintf ps => simp only [HOp.rename, HOp.Args, List.forall_mem_map, piece_legal hf]
  | _ => simp only [HOp.rename, HOp.Args, src_legal, csrc_legal, src_own hf, csrc_outside hf]

theorem cmd_legal (hf : f.Injective) (c : Cmd) : (c.rename f).Legal cfg dflt K σ ↔ c.Legal cfg dflt K (σ ∘ f) := by
  cases c with
  | createInit h x o => simp only [Cmd.rename, Cmd.Legal, src_legal]; exact Iff.rfl
  | toCstr h k => simp only [Cmd.rename, Cmd.Legal, hf.ne_iff]; exact Iff.rfl
  | op h o => simp only [Cmd.rename, Cmd.Legal, hop_args hf, hop_edit hf]; exact Iff.rfl
  | _ => exact Iff.rfl

theorem set_pull (hf : f.Injective) (σ : AState) (h : Nat) (o : Option Obj) : σ.set (f h) o ∘ f = AState.set (σ ∘ f) h o := by
  funext k
  simp only [AState.set, Function.comp, hf.eq_iff]

theorem cmd_step (hf : f.Injective) (c : Cmd) : (c.rename f).step cfg dflt K σ ∘ f = c.step cfg dflt K (σ ∘ f) := by
  cases c with
  | createEmpty h n o => exact set_pull hf _ _ _
  | createInit h x o => simp only [Cmd.rename, Cmd.step, set_pull hf, src_bytes]
  | createFixed h k n => simp only [Cmd.rename, Cmd.step, set_pull hf]
  | destroy h => exact set_pull hf _ _ _
  | toCstr h k =>
    have : σ (f h) = (σ ∘ f) h := rfl
    simp only [Cmd.rename, Cmd.step, this]
    split
    · simp only [set_pull hf]
    · rfl
  | freeStr k al => exact set_pull hf _ _ _
  | op h o =>
    have : σ (f h) = (σ ∘ f) h := rfl
    simp only [Cmd.rename, Cmd.step, this]
    split
    · simp only [set_pull hf, hop_edit hf]
    · rfl

theorem cmd_changes (c : Cmd) : (c.rename f).changes = c.changes.map f := by cases c <;> rfl

theorem cmd_leaves (hf : f.Injective) (c : Cmd) (h i n : Nat) : (c.rename f).leaves cfg K σ (f h) i n = c.leaves cfg K (σ ∘ f) h i n := by
  have e : f h ∉ (c.rename f).changes ↔ h ∉ c.changes := by
    rw [cmd_changes]
    refine not_congr ⟨fun hm => ?_, List.mem_map_of_mem⟩
    obtain ⟨k, hk, e⟩ := List.mem_map.1 hm
    exact hf e ▸ hk
  simp only [Cmd.leaves, e]
  congr 1
  cases c with
  | op k o =>
    have : σ (f h) = (σ ∘ f) h := rfl
    simp only [Cmd.rename, this]
    split
    · simp only [hop_edit hf]
    · rfl
  | _ => rfl

theorem view_after (hf : f.Injective) (c : Cmd) (v : AView) : (v.rename f).after cfg K σ (c.rename f) = (v.after cfg K (σ ∘ f) c).rename f := by
  cases v with
  | part r i n => cases r with
    | buf h =>
      simp only [AView.rename, Ref.rename, AView.after, cmd_leaves hf]
      split <;> rfl
    | const k => rfl
  | _ => rfl

theorem view_within (hf : f.Injective) (v : AView) (h n : Nat) : (v.rename f).within (f h) n = (v.within h n).rename f := by
  cases v with
  | part r i m => cases r with
    | buf k =>
      simp only [AView.rename, Ref.rename, AView.within, hf.eq_iff]
      split <;> rfl
    | const k => rfl
  | _ => rfl

theorem view_lost (hf : f.Injective) (v : AView) (h : Nat) : (v.rename f).lost (f h) = (v.lost h).rename f := by
  cases v with
  | part r i m => cases r with
    | buf k =>
      simp only [AView.rename, Ref.rename, AView.lost, hf.eq_iff]
      split <;> rfl
    | const k => rfl
  | _ => rfl

theorem view_bytes (v : AView) : (v.rename f).bytes K σ = v.bytes K (σ ∘ f) := by
  cases v with
  | part r i n => simp only [AView.rename, AView.bytes, ref_text]
  | _ => rfl

theorem view_cut (v : AView) (c : Cut) : (v.rename f).cut c = (v.cut c).rename f := by
  cases v with
  | part r i n => cases c <;> rfl
  | _ => cases c <;> rfl

theorem view_src (v : AView) : (v.rename f).src = v.src.rename f := by
  cases v <;> rfl

theorem view_null (v : AView) : v.rename f = .null ↔ v = .null := by cases v <;> simp [AView.rename]
theorem view_stale (v : AView) : v.rename f = .stale ↔ v = .stale := by cases v <;> simp [AView.rename]

theorem view_offset (hf : f.Injective) (v : AView) (r : Ref) (p : Nat) : (v.rename f).offset (r.rename f) p = v.offset r p := by
  cases v with
  | part r' i n => simp only [AView.rename, AView.offset, ref_inj hf]
  | _ => rfl

theorem view_startIn (hf : f.Injective) (v u : AView) : (v.rename f).startIn (u.rename f) = v.startIn u := by
  cases u with
  | part r i n => exact view_offset hf _ _ _
  | _ => rfl

theorem view_endIn (hf : f.Injective) (v u : AView) : (v.rename f).endIn (u.rename f) = v.endIn u := by
  cases u with
  | part r i n => exact view_offset hf _ _ _
  | _ => rfl

theorem view_comparable (v u : AView) : (v.rename f).Comparable (u.rename f) ↔ v.Comparable u := by
  rcases v with _ | ⟨_ | _, _, _⟩ | _ <;> rcases u with _ | ⟨_ | _, _, _⟩ | _ <;> exact Iff.rfl

/-- `B` is what the program holds under its own names, `A` the same with the variables `f h`. -/
structure Named (f : Nat → Nat) (A B : Mixed) : Prop where
  vars : A.σ ∘ f = B.σ
  views : A.views = B.views.map (·.rename f)
  eol : A.eol = B.eol

variable {A A' B : Mixed}

theorem Named.view (r : Named f A B) (i : Nat) : A.view i = (B.view i).rename f := by
  simp only [Mixed.view, r.views, List.getD_eq_getElem?_getD, List.getElem?_map]
  cases B.views[i]? <;> rfl

theorem Named.text (r : Named f A B) (i : Nat) : A.text K i = B.text K i := by simp only [Mixed.text, r.view, view_bytes, r.vars]
theorem Named.null (r : Named f A B) (i : Nat) : A.view i = .null ↔ B.view i = .null := by rw [r.view, view_null]
theorem Named.fresh (r : Named f A B) (i : Nat) : A.Fresh i ↔ B.Fresh i := by simp only [Mixed.Fresh, r.view, ne_eq, view_stale]
theorem Named.at (r : Named f A B) (h : Nat) : A.σ (f h) = B.σ h := congrFun r.vars h
theorem Named.handle (r : Named f A B) (h : Nat) : A.σ.Handle (f h) ↔ B.σ.Handle h := by simp only [AState.Handle, r.at]
theorem Named.data (r : Named f A B) (h : Nat) : A.σ.data (f h) = B.σ.data h := by simp only [AState.data, r.at]

theorem Named.keep (r : Named f A B) (i : Nat) (c : Cut) : Named f (A.keep i c) (B.keep i c) :=
  ⟨r.vars, by simp only [Mixed.keep, r.views, r.view, view_cut, List.map_append, List.map_cons, List.map_nil], r.eol⟩
theorem Named.shorten (r : Named f A B) (i : Nat) (c : Cut) : Named f (A.shorten i c) (B.shorten i c) :=
  ⟨r.vars, by simp only [Mixed.shorten, r.views, r.view, view_cut, List.map_set], r.eol⟩
theorem Named.keepSplit (r : Named f A B) (i : Nat) (c s : Cut) : Named f (A.keepSplit i c s) (B.keepSplit i c s) :=
  ⟨r.vars, by simp only [Mixed.keepSplit, r.views, r.view, view_cut, List.map_append, List.map_set, List.map_cons, List.map_nil], r.eol⟩
theorem Named.run (hf : f.Injective) (r : Named f A B) (c : Cmd) : Named f (A.run cfg dflt K (c.rename f)) (B.run cfg dflt K c) := by
  refine ⟨?_, ?_, r.eol⟩
  · simp only [Mixed.run, cmd_step hf, r.vars]
  · simp only [Mixed.run, r.views, List.map_map]
    exact List.map_congr_left fun v _ => by simp only [Function.comp, view_after hf, r.vars]
theorem Named.content (hf : f.Injective) (r : Named f A B) (h : Nat) (b : Buf) (l : List Byte) : Named f (A.content (f h) b l) (B.content h b l) := by
  refine ⟨?_, ?_, r.eol⟩
  · simp only [Mixed.content, set_pull hf, r.vars]
  · simp only [Mixed.content, r.views, List.map_map]
    exact List.map_congr_left fun v _ => by simp only [Function.comp, view_within hf]
theorem Named.moved (hf : f.Injective) (r : Named f A B) (h : Nat) (b : Buf) : Named f (A.moved (f h) b) (B.moved h b) := by
  refine ⟨?_, ?_, r.eol⟩
  · simp only [Mixed.moved, set_pull hf, r.vars]
  · simp only [Mixed.moved, r.views, List.map_map]
    exact List.map_congr_left fun v _ => by simp only [Function.comp, view_lost hf]
theorem Named.crypted (hf : f.Injective) (r : Named f A B) (h : Nat) (b : Buf) (l : List Byte) : Named f (A.crypted (f h) b l) (B.crypted h b l) := by
  simp only [Mixed.crypted]
  split
  · exact r.moved hf h _
  · exact r.content hf h _ _

/-! ### View functions -/

theorem vcall_legal_named (r : Named f A B) (c : VCall) : c.Legal K A ↔ c.Legal K B := by
  cases c <;> simp only [VCall.Legal, r.text, r.fresh, r.view, view_comparable]

theorem vcall_named (hf : f.Injective) (r : Named f A B) (c : VCall) (h : c.Step K A A') : ∃ B', c.Step K B B' ∧ Named f A' B' := by
  cases c with
  | sub i b e =>
    obtain rfl := h
    refine ⟨_, rfl, ?_⟩
    rw [r.text]; exact r.keep _ _
  | trim i j | trimStart i j | trimEnd i j | findFirst i j | findFirstNocase i j | findLast i j | findLastNocase i j | dequote i =>
    obtain ⟨c, h1, rfl⟩ := h
    simp only [r.text, r.null, ne_eq] at h1
    exact ⟨_, ⟨c, h1, rfl⟩, r.keep _ _⟩
  | splitFirst i d x | splitLast i d x | splitIndex i n =>
    obtain ⟨c, s, h1, rfl⟩ := h
    rw [r.text] at h1
    exact ⟨_, ⟨c, s, h1, rfl⟩, r.keepSplit _ _ _⟩
  | splitLeft i j =>
    simp only [VCall.Step, r.text, r.view, view_startIn hf] at h ⊢
    split at h
    · subst h; exact ⟨_, rfl, r.keepSplit _ _ _⟩
    · subst h; exact ⟨_, rfl, r.keepSplit _ _ _⟩
  | splitRight i j =>
    simp only [VCall.Step, r.text, r.view, view_endIn hf] at h ⊢
    split at h
    · subst h; exact ⟨_, rfl, r.keepSplit _ _ _⟩
    · subst h; exact ⟨_, rfl, r.keepSplit _ _ _⟩
  | pop i =>
    obtain rfl := h
    refine ⟨_, rfl, ?_⟩
    rw [r.text]; exact r.shorten _ _
  | splitLine i =>
    obtain ⟨c, s, e, h1, rfl⟩ := h
    rw [r.text, r.eol] at h1
    exact ⟨_, ⟨c, s, e, h1, rfl⟩, (r.keepSplit i c s).vars, (r.keepSplit i c s).views, rfl⟩
  | splitLineNull i =>
    obtain ⟨c, s, e, h1, rfl⟩ := h
    rw [r.text] at h1
    exact ⟨_, ⟨c, s, e, h1, rfl⟩, r.keepSplit _ _ _⟩

/-! ### Commands -/

theorem wop_named (r : Named f A B) (x : WOp) : x.hop A = (x.hop B).rename f := by
  have hp : ∀ p, A.piece p = (B.piece p).rename f := by
    intro p
    cases p with
    | inl l => rfl
    | inr i => simp only [Mixed.piece, r.view, view_src, Piece.rename]
  cases x with
  | printf ps | appendPrintf ps =>
    simp only [WOp.hop, HOp.rename, List.map_map]
    congr 1
    exact List.map_congr_left fun p _ => hp p
  | cat is =>
    simp only [WOp.hop, HOp.rename, List.map_map]
    congr 1
    exact List.map_congr_left fun p _ => by simp only [r.view, view_src, Function.comp]
  | _ => simp only [WOp.hop, HOp.rename, r.view, view_src]

theorem op_named (r : Named f A B) (h : Nat) (x : WOp) : Cmd.op (f h) (x.hop A) = (Cmd.op h (x.hop B)).rename f := by rw [wop_named r]; rfl
theorem create_named (r : Named f A B) (h i : Nat) (o : Option Alloc) : Cmd.createInit (f h) (A.view i).src o = (Cmd.createInit h (B.view i).src o).rename f := by
  rw [r.view, view_src]; rfl

theorem mcmd_legal_named (hf : f.Injective) (r : Named f A B) (c : MCmd) : (c.rename f).Legal cfg dflt K A ↔ c.Legal cfg dflt K B := by
  cases c with
  | cmd c => simp only [MCmd.rename, MCmd.Legal, cmd_legal hf, r.vars]
  | op h o => simp only [MCmd.rename, MCmd.Legal, op_named r, cmd_legal hf, r.vars, r.fresh]
  | create h i o => simp only [MCmd.rename, MCmd.Legal, create_named r, cmd_legal hf, r.vars, r.fresh]
  | view h => exact r.handle h
  | const k => exact Iff.rfl
  | call c => exact vcall_legal_named r c

theorem whole_named (r : Named f A B) (h : Nat) : A.σ.whole (f h) = (B.σ.whole h).rename f := by
  simp only [AState.whole, r.at]
  split <;> rfl

theorem mcmd_named (hf : f.Injective) (r : Named f A B) (c : MCmd) (h : (c.rename f).Step cfg dflt K A A') : ∃ B', c.Step cfg dflt K B B' ∧ Named f A' B' := by
  cases c with
  | cmd c => obtain rfl := h; exact ⟨_, rfl, r.run hf c⟩
  | op k o =>
    obtain rfl := h
    refine ⟨_, rfl, ?_⟩
    rw [op_named r]; exact r.run hf _
  | create k i o =>
    obtain rfl := h
    refine ⟨_, rfl, ?_⟩
    rw [create_named r]; exact r.run hf _
  | view k =>
    obtain rfl := h
    exact ⟨_, rfl, r.vars, by simp only [r.views, whole_named r, List.map_append, List.map_cons, List.map_nil], r.eol⟩
  | const k =>
    obtain rfl := h
    exact ⟨_, rfl, r.vars, by simp only [r.views, List.map_append, List.map_cons, List.map_nil]; rfl, r.eol⟩
  | call c => exact vcall_named hf r c h

/-! ### Questions -/

theorem query_legal_named (r : Named f A B) (q : Query) : (q.rename f).Legal K A ↔ q.Legal K B := by
  cases q <;> simp only [Query.rename, Query.Legal, Query.uses, r.text, r.fresh, r.at]

theorem convStep_named {i : Nat} {l ds rest : List Byte} {inRange : Prop} {d val : Int} {a : Answer} (r : Named f A B) (h : ConvStep A i l ds rest inRange d val a A') :
    ∃ B', ConvStep B i l ds rest inRange d val a B' ∧ Named f A' B' := by
  rcases h with ⟨h1, h2, rfl⟩ | ⟨h1, h2, h3, rfl⟩ | ⟨h1, h2, h3, rfl⟩
  · exact ⟨B, .inl ⟨h1, h2, rfl⟩, r⟩
  · exact ⟨B, .inr (.inl ⟨h1, h2, h3, rfl⟩), r⟩
  · exact ⟨_, .inr (.inr ⟨h1, h2, h3, rfl⟩), r.shorten _ _⟩

theorem query_named (r : Named f A B) (q : Query) {a : Answer} (h : (q.rename f).Step K A a A') : ∃ B', q.Step K B a B' ∧ Named f A' B' := by
  cases q with
  | popChar i =>
    simp only [Query.rename, Query.Step, r.text] at h ⊢
    rcases h with ⟨h1, h2, rfl⟩ | ⟨c, t, h1, h2, rfl⟩
    · exact ⟨B, .inl ⟨h1, h2, rfl⟩, r⟩
    · exact ⟨_, .inr ⟨c, t, h1, h2, rfl⟩, r.shorten _ _⟩
  | unsigned t i o d =>
    simp only [Query.rename, Query.Step, r.text] at h ⊢
    obtain ⟨l1, l2, base, ds, n, rest, h1, h2, h3, h4⟩ := h
    obtain ⟨B', h5, h6⟩ := convStep_named r h4
    exact ⟨B', ⟨l1, l2, base, ds, n, rest, h1, h2, h3, h5⟩, h6⟩
  | signed t i o d =>
    simp only [Query.rename, Query.Step, r.text] at h ⊢
    obtain ⟨l1, l2, l3, neg, base, ds, n, rest, h1, h2, h3, h4, h5⟩ := h
    obtain ⟨B', h6, h7⟩ := convStep_named r h5
    exact ⟨B', ⟨l1, l2, l3, neg, base, ds, n, rest, h1, h2, h3, h4, h6⟩, h7⟩
  | _ =>
    simp only [Query.rename, Query.Step, r.text, r.null, r.at, ne_eq] at h ⊢
    obtain ⟨rfl, h⟩ := h
    exact ⟨B, ⟨rfl, h⟩, r⟩

/-! ### Actions -/

theorem iact_legal_named (hf : f.Injective) (r : Named f A B) (x : IAct) : (x.rename f).Legal cfg dflt K A ↔ x.Legal cfg dflt K B := by
  cases x with
  | act x => cases x with
    | cmd c => exact mcmd_legal_named hf r c
    | ask q => exact query_legal_named r q
  | read h | write h => exact r.handle h
  | writeView i => exact r.fresh i
  | pack h k o t x => simp only [IAct.rename, IAct.Legal, AState.Area, r.at]
  | unpack i k o t => simp only [IAct.rename, IAct.Legal, AState.Area, r.at, r.fresh, r.text]
  | encrypt h key iv k => simp only [IAct.rename, IAct.Legal, AState.Crypt, AState.Key, AState.Area, r.at, hf.ne_iff]
  | decrypt h key iv k => simp only [IAct.rename, IAct.Legal, AState.Crypt, AState.Key, AState.Area, r.at, r.data, hf.ne_iff]

theorem iact_named (hf : f.Injective) (r : Named f A B) (x : IAct) {d : Option Nat} {w w' : World} {a : Answer} (h : (x.rename f).Step cfg dflt K d A w a A' w') :
    ∃ B', x.Step cfg dflt K d B w a B' w' ∧ Named f A' B' := by
  cases x with
  | act x =>
    cases x with
    | cmd c =>
      obtain ⟨⟨rfl, h⟩, rfl⟩ := h
      obtain ⟨B', h1, h2⟩ := mcmd_named hf r c h
      exact ⟨B', ⟨⟨rfl, h1⟩, rfl⟩, h2⟩
    | ask q =>
      obtain ⟨h, rfl⟩ := h
      obtain ⟨B', h1, h2⟩ := query_named r q h
      exact ⟨B', ⟨h1, rfl⟩, h2⟩
  | read k =>
    simp only [IAct.rename, IAct.Step, r.at] at h ⊢
    rcases h with ⟨h1, h2, rfl, h3⟩ | ⟨b, h1, ⟨h2, h3, rfl, h4⟩ | ⟨j, l, rest, h2, h3, h4, h5, rfl, h6⟩⟩
    · exact ⟨B, .inl ⟨h1, h2, rfl, h3⟩, r⟩
    · exact ⟨B, .inr ⟨b, h1, .inl ⟨h2, h3, rfl, h4⟩⟩, r⟩
    · exact ⟨_, .inr ⟨b, h1, .inr ⟨j, l, rest, h2, h3, h4, h5, rfl, h6⟩⟩, r.content hf _ _ _⟩
  | write k =>
    simp only [IAct.rename, IAct.Step, r.at] at h ⊢
    rcases h with ⟨h1, h2, rfl, h3⟩ | ⟨b, h1, ⟨h2, h3, rfl, h4⟩ | ⟨j, l, rest, h2, h3, h4, h5, rfl, h6⟩⟩
    · exact ⟨B, .inl ⟨h1, h2, rfl, h3⟩, r⟩
    · exact ⟨B, .inr ⟨b, h1, .inl ⟨h2, h3, rfl, h4⟩⟩, r⟩
    · exact ⟨_, .inr ⟨b, h1, .inr ⟨j, l, rest, h2, h3, h4, h5, rfl, h6⟩⟩, r.content hf _ _ _⟩
  | writeView i =>
    simp only [IAct.rename, IAct.Step, r.null, r.text, ne_eq] at h ⊢
    rcases h with ⟨h1, h2, rfl, h3⟩ | ⟨h1, ⟨h2, h3, rfl, h4⟩ | ⟨j, l, rest, h2, h3, h4, h5, h6, rfl⟩⟩
    · exact ⟨B, .inl ⟨h1, h2, rfl, h3⟩, r⟩
    · exact ⟨B, .inr ⟨h1, .inl ⟨h2, h3, rfl, h4⟩⟩, r⟩
    · exact ⟨_, .inr ⟨h1, .inr ⟨j, l, rest, h2, h3, h4, h5, h6, rfl⟩⟩, r.shorten _ _⟩
  | pack k k' o t x =>
    obtain ⟨rfl, rfl, b, h1, rfl⟩ := h
    rw [r.at] at h1
    refine ⟨_, ⟨rfl, rfl, b, h1, rfl⟩, ?_⟩
    split
    · exact r.content hf _ _ _
    · exact r.moved hf _ _
  | unpack i k o t =>
    simp only [IAct.rename, IAct.Step, r.text] at h ⊢
    obtain ⟨rfl, x, rest, h1, h2, h3, rfl⟩ := h
    exact ⟨_, ⟨rfl, x, rest, h1, h2, h3, rfl⟩, r.shorten _ _⟩
  | encrypt k key iv k' =>
    obtain ⟨rfl, rfl, b, out, h1, h2, rfl⟩ := h
    rw [r.at] at h1; rw [r.data, r.data] at h2
    exact ⟨_, ⟨rfl, rfl, b, out, h1, h2, rfl⟩, r.crypted hf _ _ _⟩
  | decrypt k key iv k' =>
    obtain ⟨rfl, rfl, b, out, h1, h2, rfl⟩ := h
    rw [r.at] at h1; rw [r.data, r.data] at h2
    exact ⟨_, ⟨rfl, rfl, b, out, h1, h2, rfl⟩, r.crypted hf _ _ _⟩

/-! ### Programs -/

theorem legal_named (hf : f.Injective) {os : Nat → Option Nat} {p : IProgram} (n : Nat) {t : List Answer} {A B : Mixed} (r : Named f A B) {w : World} (h : LegalIPlay cfg dflt K os p n t B w) :
    LegalIPlay cfg dflt K os (p.rename f) n t A w := by
  induction n generalizing t A B w with
  | zero => trivial
  | succ n ih =>
    intro x hx
    obtain ⟨y, hy, rfl⟩ := Option.map_eq_some_iff.1 hx
    obtain ⟨h1, h2⟩ := h y hy
    refine ⟨(iact_legal_named hf r y).2 h1, fun a A' w' hs => ?_⟩
    obtain ⟨B', g1, g2⟩ := iact_named hf r y hs
    exact ih g2 (h2 a B' w' g1)

theorem plays_named (hf : f.Injective) {os : Nat → Option Nat} {p : IProgram} {n : Nat} {t t' : List Answer} {A A' B : Mixed} {w w' : World} (r : Named f A B)
    (h : IPlays cfg dflt K os (p.rename f) n t A w t' A' w') : ∃ B', IPlays cfg dflt K os p n t B w t' B' w' ∧ Named f A' B' := by
  induction h generalizing B with
  | zero t A w => exact ⟨B, .zero _ _ _, r⟩
  | stop hp => exact ⟨B, .stop (Option.map_eq_none_iff.1 hp), r⟩
  | next hp hs _ ih =>
    obtain ⟨y, hy, rfl⟩ := Option.map_eq_some_iff.1 hp
    obtain ⟨B1, g1, g2⟩ := iact_named hf r y hs
    obtain ⟨B', g3, g4⟩ := ih g2
    exact ⟨B', .next hy g1 g3, g4⟩

theorem src_slots_named (x : Src) : (x.rename f).slots = x.slots.map f := by
  cases x with
  | part r i n => cases r <;> rfl
  | _ => rfl
theorem csrc_slots_named (x : CSrc) : (x.rename f).slots = x.slots.map f := by cases x <;> rfl
theorem piece_slots_named (x : Piece) : (x.rename f).slots = x.slots.map f := by
  cases x with
  | text l => rfl
  | arg x => exact src_slots_named x
theorem hop_slots_named (o : HOp) : (o.rename f).slots = o.slots.map f := by
  cases o with
  | cat xs => simp only [HOp.rename, HOp.slots, List.flatMap_map, List.map_flatMap, src_slots_named]
  | printf ps | appendPrintf ps => simp only [HOp.rename, HOp.slots, List.flatMap_map, List.map_flatMap, piece_slots_named]
  | _ => simp only [HOp.rename, HOp.slots, src_slots_named, csrc_slots_named, List.map_append, List.map_nil]
theorem cmd_slots_named (c : Cmd) : (c.rename f).slots = c.slots.map f := by
  cases c <;> simp only [Cmd.rename, Cmd.slots, src_slots_named, hop_slots_named, List.map_cons, List.map_nil]
theorem iact_slots_named (x : IAct) : (x.rename f).slots = x.slots.map f := by
  cases x with
  | act x => cases x with
    | cmd c => cases c <;> simp only [IAct.rename, MCmd.rename, IAct.slots, MCmd.slots, cmd_slots_named, List.map_cons, List.map_nil]
    | ask q => cases q <;> rfl
  | _ => rfl

end

end CStr
