import Verif.Spec.Sealed
import Verif.Lemmas.GrepStep
/-! The invariants of the programs of Spec/Sealed.lean. -/
namespace CStr

/-- A step is legal, keeps the invariant and, unless the operating system fails, makes the measure smaller. -/
def Proceeds {P : Type} (cfg : Cfg) (dflt : Alloc) (K : Nat → List Byte) (Inv : P → Mixed → World → Nat → Prop) (next : Answer → P) (A : Mixed) (w : World) (μ : Nat) (x : IAct) : Prop :=
  x.Legal cfg dflt K A ∧ ∀ d a B w1, d ≠ some 0 → x.Step cfg dflt K d A w a B w1 → ∃ μ', (d ≠ none → μ' < μ) ∧ Inv (next a) B w1 μ'

/-- What both programs hold while they run. -/
structure Sealing (K : Nat → List Byte) (A : Mixed) (b0 : Buf) : Prop where
  buf0 : A.σ 0 = some (.buf b0)
  dyn0 : b0.Dynamic
  key : ∃ b, A.σ 2 = some (.buf b) ∧ b.data = K 0
  iv : ∃ b, A.σ 3 = some (.buf b) ∧ b.data = K 1
  area : A.σ.Area 9 4

section

variable {cfg : Cfg} {dflt : Alloc} {K : Nat → List Byte} {A B : Mixed} {w : World} {b0 b0' : Buf}

theorem Sealing.to (g : Sealing K A b0) (h0 : B.σ 0 = some (.buf b0')) (hd : b0'.Dynamic) (h : ∀ k, k = 2 ∨ k = 3 ∨ k = 9 → B.σ k = A.σ k) : Sealing K B b0' := by
  refine ⟨h0, hd, ?_, ?_, ?_⟩
  · rw [h 2 (.inl rfl)]; exact g.key
  · rw [h 3 (.inr (.inl rfl))]; exact g.iv
  · obtain ⟨m, h1, h2⟩ := g.area
    exact ⟨m, by rw [h 9 (.inr (.inr rfl))]; exact h1, h2⟩

theorem Sealing.handle (g : Sealing K A b0) : A.σ.Handle 0 := fun x h => by rw [g.buf0] at h; cases h; exact ⟨_, rfl⟩

theorem Sealing.keyData (g : Sealing K A b0) : A.σ.data 2 = K 0 ∧ A.σ.data 3 = K 1 := by
  obtain ⟨b, h1, h2⟩ := g.key
  obtain ⟨b', h3, h4⟩ := g.iv
  simp only [AState.data, h1, h3]
  exact ⟨h2, h4⟩

theorem Sealing.keys (g : Sealing K A b0) (h1 : (K 0).length = 32) (h2 : (K 1).length = 16) : A.σ.Key 2 32 ∧ A.σ.Key 3 16 := by
  obtain ⟨b, h3, h4⟩ := g.key
  obtain ⟨b', h5, h6⟩ := g.iv
  exact ⟨⟨b, h3, by rw [h4]; omega⟩, ⟨b', h5, by rw [h6]; omega⟩⟩

/-- Room for reading. -/
theorem Sealing.grow (g : Sealing K A b0) (hv : A.views = []) (hb : (b0.data.length : Int) + 1 + cfg.growStep ≤ INT_MAX) (hp : 0 < cfg.growStep) :
    (IAct.act (.cmd (.cmd (.op 0 (.grow ((b0.data.length : Int) + 1)))))).Legal cfg dflt K A ∧
    ∀ d a B w1, (IAct.act (.cmd (.cmd (.op 0 (.grow ((b0.data.length : Int) + 1)))))).Step cfg dflt K d A w a B w1 →
      w1 = w ∧ B.views = [] ∧ (∀ k, k ≠ 0 → B.σ k = A.σ k) ∧ ∃ b0', Sealing K B b0' ∧ b0'.data = b0.data ∧ b0.data.length < b0'.cap := by
  refine ⟨⟨g.handle, trivial, fun b hb' => ?_⟩, ?_⟩
  · rw [g.buf0] at hb'; cases hb'
    refine ⟨.inr (.inr (.inl ?_)), ?_⟩
    · simp only [HOp.edit, Edit.wanted]; omega
    · show (b0.data.length : Int) + 1 ≤ INT_MAX; omega
  rintro d a B w1 ⟨⟨rfl, rfl⟩, rfl⟩
  have hc : ((HOp.grow ((b0.data.length : Int) + 1)).edit K A.σ 0 b0).content b0 = b0.data :=
    content_if_fits rfl (.inr ⟨g.dyn0, by simp only [HOp.edit, Edit.wanted]; omega⟩)
  have hσ : ∀ k, k ≠ 0 → (A.run cfg dflt K (.op 0 (.grow ((b0.data.length : Int) + 1)))).σ k = A.σ k := by
    intro k hk; rw [run_op g.buf0]; exact AState.set_ne _ _ hk
  refine ⟨rfl, by simp [Mixed.run, hv], hσ, _, g.to (b0' := ((HOp.grow ((b0.data.length : Int) + 1)).edit K A.σ 0 b0).apply cfg b0) ?_ g.dyn0 ?_, hc, ?_⟩
  · rw [run_op g.buf0]; exact AState.set_same _ _ _
  · intro k hk; exact hσ k (by omega)
  · simp only [Edit.apply]
    simp only [HOp.edit, Edit.cap, if_pos g.dyn0]
    omega

/-- Reading. -/
theorem Sealing.read (g : Sealing K A b0) (hv : A.views = []) (hc : b0.data.length < b0.cap) :
    (IAct.read 0).Legal cfg dflt K A ∧
    ∀ d a B w1, d ≠ some 0 → (IAct.read 0).Step cfg dflt K d A w a B w1 →
      (d = none ∧ a = .int (-1) ∧ B = A ∧ w1 = w) ∨
      ∃ l rest, w.inp = l ++ rest ∧ a = .int l.length ∧ w1 = { w with inp := rest } ∧ (l = [] → w.inp = []) ∧ B.views = [] ∧ (∀ k, k ≠ 0 → B.σ k = A.σ k) ∧
        Sealing K B { b0 with data := b0.data ++ l } := by
  refine ⟨g.handle, ?_⟩
  rintro d a B w1 hd (⟨e, -⟩ | ⟨b, e, h⟩)
  · rw [g.buf0] at e; cases e
  rw [g.buf0] at e; cases e
  rcases h with ⟨rfl, rfl, rfl, rfl⟩ | ⟨j, l, rest, rfl, e1, e2, rfl, rfl, rfl⟩
  · exact .inl ⟨rfl, rfl, rfl, rfl⟩
  have hj : j ≠ 0 := fun h => hd (by rw [h])
  refine .inr ⟨l, rest, e1, rfl, rfl, ?_, by simp [Mixed.content, hv], fun k hk => AState.set_ne _ _ hk, g.to (by simp [Mixed.content, AState.set]) g.dyn0 fun k hk => AState.set_ne _ _ (by omega)⟩
  rintro rfl
  simp only [List.length_nil] at e2
  exact List.length_eq_zero_iff.1 (by omega)

end

/-! ## The first program -/

/-- While it reads. -/
structure Filling (K : Nat → List Byte) (m : List Byte) (A : Mixed) (w : World) (b0 b1 : Buf) : Prop extends Sealing K A b0 where
  views : A.views = []
  buf1 : A.σ 1 = some (.buf b1)
  dyn1 : b1.Dynamic
  empty : b1.data = []
  total : m = b0.data ++ w.inp
  out : w.out = []

/-- When it has read the message: `o` is what is in the output buffer. -/
structure Packing (K : Nat → List Byte) (m : List Byte) (A : Mixed) (w : World) (b0 b1 : Buf) (o : List Byte) : Prop extends Sealing K A b0 where
  buf1 : A.σ 1 = some (.buf b1)
  dyn1 : b1.Dynamic
  all : b0.data = m
  inp : w.inp = []
  out : w.out ++ b1.data = o

def SealInv (dflt : Alloc) (K : Nat → List Byte) (m : List Byte) (n : Nat) (p : Seal) (A : Mixed) (w : World) (μ : Nat) : Prop :=
  let P := 2 * paddedLen (m.length + 4)
  match p with
  | .key => A = sealStart n ∧ w = ⟨m, []⟩ ∧ μ = P + 4 * m.length + 28
  | .iv => A.σ.Area 9 4 ∧ (∃ b, A.σ 2 = some (.buf b) ∧ b.data = K 0) ∧ A.σ 3 = none ∧ A.σ 0 = none ∧ A.σ 1 = none ∧ A.views = [] ∧ w = ⟨m, []⟩ ∧ μ = P + 4 * m.length + 27
  | .inp => A.σ.Area 9 4 ∧ (∃ b, A.σ 2 = some (.buf b) ∧ b.data = K 0) ∧ (∃ b, A.σ 3 = some (.buf b) ∧ b.data = K 1) ∧ A.σ 0 = none ∧ A.σ 1 = none ∧ A.views = [] ∧ w = ⟨m, []⟩ ∧
      μ = P + 4 * m.length + 26
  | .out => Sealing K A ⟨[], 0, dflt⟩ ∧ A.σ 1 = none ∧ A.views = [] ∧ w = ⟨m, []⟩ ∧ μ = P + 4 * m.length + 25
  | .top => ∃ b0 b1, Filling K m A w b0 b1 ∧ μ = P + 4 * w.inp.length + 23
  | .grow n => ∃ b0 b1, Filling K m A w b0 b1 ∧ n = b0.data.length ∧ μ = P + 4 * w.inp.length + 22
  | .read => ∃ b0 b1, Filling K m A w b0 b1 ∧ b0.data.length < b0.cap ∧ μ = P + 4 * w.inp.length + 21
  | .size => ∃ b0 b1, Packing K m A w b0 b1 [] ∧ A.views = [] ∧ μ = P + 15
  | .pack n => ∃ b0 b1, Packing K m A w b0 b1 [] ∧ A.views = [] ∧ n = m.length ∧ μ = P + 14
  | .view => ∃ b0 b1, Packing K m A w b0 b1 (wire .BE .u32 m.length) ∧ w.out = [] ∧ A.views = [] ∧ μ = P + 13
  | .append => ∃ b0 b1, Packing K m A w b0 b1 (wire .BE .u32 m.length) ∧ w.out = [] ∧ A.views = [.part (.buf 0) 0 m.length] ∧ μ = P + 12
  | .crypt => ∃ b0 b1, Packing K m A w b0 b1 (wire .BE .u32 m.length ++ m) ∧ w.out = [] ∧ μ = P + 11
  | .flush => ∃ b0 b1 c, Packing K m A w b0 b1 c ∧ IsSealed (K 0) (K 1) m c ∧ μ = 2 * b1.data.length + 2
  | .write => ∃ b0 b1 c, Packing K m A w b0 b1 c ∧ IsSealed (K 0) (K 1) m c ∧ b1.data ≠ [] ∧ μ = 2 * b1.data.length + 1
  | .stop => ∃ b0 b1 c, Packing K m A w b0 b1 c ∧ IsSealed (K 0) (K 1) m c ∧ b1.data = [] ∧ μ = 0

theorem sealed_length {k iv m c : List Byte} (hk : k.length = 32) (hiv : iv.length = 16) (h : IsSealed k iv m c) : c.length = paddedLen (m.length + 4) := by
  rw [(cbc_length hk hiv h).1, paddedLen_eq, List.length_append, wire_length]
  simp only [IntTy.width, Nat.add_comm]

section

variable {cfg : Cfg} {dflt : Alloc} {K : Nat → List Byte} {m : List Byte} {n : Nat} {A : Mixed} {w : World} {μ : Nat}

theorem seal_start (hd : dflt.Ok) (hn : 4 ≤ n) {p : Seal} (hp : p = .key ∨ p = .iv ∨ p = .inp ∨ p = .out) (h : SealInv dflt K m n p A w μ) {x : IAct} (hx : p.act = some x) :
    Proceeds cfg dflt K (SealInv dflt K m n) p.next A w μ x := by
  rcases hp with rfl | rfl | rfl | rfl <;> cases hx
  · obtain ⟨rfl, rfl, rfl⟩ := h
    refine ⟨⟨rfl, hd, trivial⟩, ?_⟩
    rintro d a B w1 - ⟨⟨rfl, rfl⟩, rfl⟩
    exact ⟨_, fun _ => Nat.lt_succ_self _, ⟨n, rfl, hn⟩, ⟨_, rfl, rfl⟩, rfl, rfl, rfl, rfl, rfl, rfl⟩
  · obtain ⟨⟨n', h9, h9'⟩, ⟨b, hb, hb'⟩, h3, h0, h1, hv, rfl, rfl⟩ := h
    refine ⟨⟨h3, hd, trivial⟩, ?_⟩
    rintro d a B w1 - ⟨⟨rfl, rfl⟩, rfl⟩
    exact ⟨_, fun _ => Nat.lt_succ_self _, ⟨n', h9, h9'⟩, ⟨b, hb, hb'⟩, ⟨_, rfl, rfl⟩, h0, h1, by simp [Mixed.run, hv], rfl, rfl⟩
  · obtain ⟨⟨n', h9, h9'⟩, ⟨b, hb, hb'⟩, ⟨b', hc, hc'⟩, h0, h1, hv, rfl, rfl⟩ := h
    refine ⟨⟨h0, hd, by decide⟩, ?_⟩
    rintro d a B w1 - ⟨⟨rfl, rfl⟩, rfl⟩
    exact ⟨_, fun _ => Nat.lt_succ_self _, ⟨rfl, hd.some, ⟨b, hb, hb'⟩, ⟨b', hc, hc'⟩, ⟨n', h9, h9'⟩⟩, h1, by simp [Mixed.run, hv], rfl, rfl⟩
  · obtain ⟨g, h1, hv, rfl, rfl⟩ := h
    refine ⟨⟨h1, hd, by decide⟩, ?_⟩
    rintro d a B w1 - ⟨⟨rfl, rfl⟩, rfl⟩
    refine ⟨_, fun _ => (by dsimp only; omega), ⟨[], 0, dflt⟩, ⟨[], 0, dflt⟩, ⟨g.to g.buf0 g.dyn0 fun k hk => ?_, by simp [Mixed.run, hv], rfl, hd.some, rfl, rfl, rfl⟩, rfl⟩
    exact AState.set_ne _ _ (by omega)

theorem seal_fill (hm : (m.length : Int) + 64 + cfg.growStep ≤ INT_MAX) (hp0 : 0 < cfg.growStep) {p : Seal} (hp : p = .top ∨ (∃ n, p = .grow n) ∨ p = .read) (h : SealInv dflt K m n p A w μ)
    {x : IAct} (hx : p.act = some x) : Proceeds cfg dflt K (SealInv dflt K m n) p.next A w μ x := by
  rcases hp with rfl | ⟨j, rfl⟩ | rfl <;> cases hx
  · obtain ⟨b0, b1, g, rfl⟩ := h
    refine ⟨⟨(fun i hi => by simp [Query.uses] at hi), b0, g.buf0⟩, ?_⟩
    rintro d a B w1 - ⟨⟨rfl, b, hb, rfl⟩, rfl⟩
    rw [g.buf0] at hb; cases hb
    exact ⟨_, fun _ => Nat.lt_succ_self _, b0, b1, g, rfl, rfl⟩
  · obtain ⟨b0, b1, g, rfl, rfl⟩ := h
    have hl := congrArg List.length g.total
    rw [List.length_append] at hl
    obtain ⟨l1, l2⟩ := g.toSealing.grow (cfg := cfg) (dflt := dflt) (w := w) g.views (by omega) hp0
    refine ⟨l1, fun d a B w1 _ hs => ?_⟩
    obtain ⟨rfl, hv, hσ, b0', g', e, hc⟩ := l2 d a B w1 hs
    exact ⟨_, fun _ => Nat.lt_succ_self _, b0', b1, ⟨g', hv, by rw [hσ 1 (by decide)]; exact g.buf1, g.dyn1, g.empty, by rw [e]; exact g.total, g.out⟩, by rw [e]; exact hc, rfl⟩
  · obtain ⟨b0, b1, g, hc, rfl⟩ := h
    obtain ⟨l1, l2⟩ := g.toSealing.read (cfg := cfg) (dflt := dflt) (w := w) g.views hc
    refine ⟨l1, fun d a B w1 hd hs => ?_⟩
    rcases l2 d a B w1 hd hs with ⟨rfl, rfl, rfl, rfl⟩ | ⟨l, rest, e, rfl, rfl, hl, hv, hσ, g'⟩
    · exact ⟨_, fun h => absurd rfl h, b0, b1, g, rfl⟩
    have hb1 : B.σ 1 = some (.buf b1) := by rw [hσ 1 (by decide)]; exact g.buf1
    have htot : m = b0.data ++ l ++ rest := by rw [g.total, e, List.append_assoc]
    simp only [Seal.next]
    split
    · next h0 =>
      obtain rfl : l = [] := List.length_eq_zero_iff.1 (by omega)
      have hi := hl rfl
      rw [e] at hi
      simp only [List.nil_append] at hi
      subst hi
      exact ⟨_, fun _ => (by omega), _, b1, ⟨g', hb1, g.dyn1, by simp only [htot, List.append_nil], rfl, by rw [g.out, g.empty]; rfl⟩, hv, rfl⟩
    · next h0 =>
      have := congrArg List.length e
      rw [List.length_append] at this
      refine ⟨_, fun _ => ?_, _, b1, ⟨g', hv, hb1, g.dyn1, g.empty, htot, g.out⟩, rfl⟩
      simp only; omega

theorem Packing.handle1 {b0 b1 : Buf} {o : List Byte} (g : Packing K m A w b0 b1 o) : A.σ.Handle 1 := fun x h => by rw [g.buf1] at h; cases h; exact ⟨_, rfl⟩

theorem seal_pack (hm : (m.length : Int) + 64 + cfg.growStep ≤ INT_MAX) (hp0 : 0 < cfg.growStep) {p : Seal} (hp : p = .size ∨ (∃ n, p = .pack n) ∨ p = .view ∨ p = .append)
    (h : SealInv dflt K m n p A w μ) {x : IAct} (hx : p.act = some x) : Proceeds cfg dflt K (SealInv dflt K m n) p.next A w μ x := by
  rcases hp with rfl | ⟨j, rfl⟩ | rfl | rfl <;> cases hx
  · obtain ⟨b0, b1, g, hv, rfl⟩ := h
    refine ⟨⟨(fun i hi => by simp [Query.uses] at hi), b0, g.buf0⟩, ?_⟩
    rintro d a B w1 - ⟨⟨rfl, b, hb, rfl⟩, rfl⟩
    rw [g.buf0] at hb; cases hb
    exact ⟨_, fun _ => Nat.lt_succ_self _, b0, b1, g, hv, by rw [g.all], rfl⟩
  · obtain ⟨b0, b1, g, hv, rfl, rfl⟩ := h
    obtain ⟨ho, hb⟩ := List.append_eq_nil_iff.1 g.out
    have hlen : ((b1.data.length : Int) + (wire .BE .u32 m.length).length) + cfg.growStep ≤ INT_MAX := by rw [hb, wire_length]; simp only [List.length_nil, IntTy.width]; omega
    obtain ⟨-, con⟩ := append_content (cfg := cfg) g.dyn1 (S := wire .BE .u32 m.length) hlen hp0
    refine ⟨⟨g.area, b1, g.buf1, .inr (.inr (.inl ?_))⟩, ?_⟩
    · rw [wire_length] at hlen; push_cast; exact hlen
    rintro d a B w1 - ⟨rfl, rfl, b, hb', rfl⟩
    rw [g.buf1] at hb'; cases hb'
    refine ⟨2 * paddedLen (m.length + 4) + 13, fun _ => Nat.lt_succ_self _, ?_⟩
    have con' : (Edit.insert b1.data.length (wire .BE .u32 m.length)).content b1 = wire .BE .u32 m.length := by rw [con, hb, List.nil_append]
    split
    · refine ⟨b0, { b1 with data := (Edit.insert b1.data.length (wire .BE .u32 m.length)).content b1 },
        ⟨g.toSealing.to (A := A) g.buf0 g.dyn0 ?_, by simp [Mixed.content, AState.set], g.dyn1, g.all, g.inp, ?_⟩, ho, by simp [Mixed.content, hv], rfl⟩
      · intro k hk; exact AState.set_ne _ _ (by omega)
      · rw [ho]; exact con'
    · refine ⟨b0, (Edit.insert b1.data.length (wire .BE .u32 m.length)).apply cfg b1,
        ⟨g.toSealing.to (A := A) g.buf0 g.dyn0 ?_, by simp [Mixed.moved, AState.set], g.dyn1, g.all, g.inp, ?_⟩, ho, by simp [Mixed.moved, hv], rfl⟩
      · intro k hk; exact AState.set_ne _ _ (by omega)
      · rw [ho]; exact con'
  · obtain ⟨b0, b1, g, ho, hv, rfl⟩ := h
    refine ⟨g.handle, ?_⟩
    rintro d a B w1 - ⟨⟨rfl, rfl⟩, rfl⟩
    exact ⟨_, fun _ => Nat.lt_succ_self _, b0, b1, ⟨g.toSealing.to g.buf0 g.dyn0 (fun _ _ => rfl), g.buf1, g.dyn1, g.all, g.inp, g.out⟩, ho,
      by simp [hv, AState.whole, g.buf0, g.all], rfl⟩
  · obtain ⟨b0, b1, g, ho, hv, rfl⟩ := h
    have hv0 : A.view 0 = .part (.buf 0) 0 m.length := by simp [Mixed.view, hv]
    have hb : ((A.view 0).src).bytes K A.σ = m := by
      simp only [hv0, AView.src, Src.bytes, Ref.text, AState.data, g.buf0, g.all, List.drop_zero, List.take_length]
    have hd1 : b1.data = wire .BE .u32 m.length := by have := g.out; rwa [ho, List.nil_append] at this
    have hl1 : b1.data.length = 4 := by rw [hd1, wire_length]; rfl
    obtain ⟨ok, con⟩ := append_content (cfg := cfg) g.dyn1 (S := m) (by omega) hp0
    have hedit : ((WOp.append 0).hop A).edit K A.σ 1 b1 = .insert b1.data.length m := by simp only [WOp.hop, HOp.edit, hb]
    refine ⟨⟨fun i hi => ?_, g.handle1, ?_, fun b e => ?_⟩, ?_⟩
    · obtain rfl : i = 0 := by simpa [WOp.uses] using hi
      rw [Mixed.Fresh, hv0]; intro h; cases h
    · show ((A.view 0).src).Legal K A.σ
      rw [hv0]
      refine ⟨⟨b0, g.buf0⟩, ?_⟩
      simp only [Ref.text, AState.data, g.buf0, g.all]; omega
    · rw [g.buf1] at e; cases e; rw [hedit]; exact ok
    rintro d a B w1 - ⟨⟨rfl, rfl⟩, rfl⟩
    refine ⟨_, fun _ => Nat.lt_succ_self _, b0, (Edit.insert b1.data.length m).apply cfg b1, ⟨g.toSealing.to (A := A) ?_ g.dyn0 ?_, ?_, g.dyn1, g.all, g.inp, ?_⟩, ho, rfl⟩
    · rw [run_op g.buf1]; exact g.buf0
    · intro k hk; rw [run_op g.buf1]; exact AState.set_ne _ _ (by omega)
    · rw [run_op g.buf1, hedit]; exact AState.set_same _ _ _
    · rw [ho, List.nil_append, ← hd1]; exact con

theorem seal_send (hK0 : (K 0).length = 32) (hK1 : (K 1).length = 16) (hm : (m.length : Int) + 64 + cfg.growStep ≤ INT_MAX) (hp0 : 0 < cfg.growStep) {p : Seal}
    (hp : p = .crypt ∨ p = .flush ∨ p = .write)
    (h : SealInv dflt K m n p A w μ) {x : IAct} (hx : p.act = some x) : Proceeds cfg dflt K (SealInv dflt K m n) p.next A w μ x := by
  rcases hp with rfl | rfl | rfl <;> cases hx
  · obtain ⟨b0, b1, g, ho, rfl⟩ := h
    have hd1 : b1.data = wire .BE .u32 m.length ++ m := by have := g.out; rwa [ho, List.nil_append] at this
    have hl1 : b1.data.length = m.length + 4 := by rw [hd1, List.length_append, wire_length]; simp only [IntTy.width]; omega
    obtain ⟨k1, k2⟩ := g.keys hK0 hK1
    refine ⟨⟨b1, g.buf1, .inr ⟨g.dyn1, ?_⟩, by decide, by decide, k1, k2, fun h => absurd g.dyn1 h⟩, ?_⟩
    · rw [hl1]; simp only [paddedLen]; omega
    rintro d a B w1 - ⟨rfl, rfl, b, out, hb, hc, rfl⟩
    rw [g.buf1] at hb; cases hb
    rw [g.keyData.1, g.keyData.2, List.take_of_length_le (by omega), List.take_of_length_le (by omega), hd1] at hc
    have hlen := sealed_length hK0 hK1 hc
    refine ⟨_, fun _ => ?_, b0, ⟨out, max b1.cap (paddedLen b1.data.length), b1.al⟩, out, ⟨g.toSealing.to (A := A) ?_ g.dyn0 ?_, ?_, g.dyn1, g.all, g.inp, ?_⟩, hc, rfl⟩
    · simp only [hlen]; omega
    · rw [Mixed.crypted, if_pos g.dyn1]; exact g.buf0
    · intro k hk; rw [Mixed.crypted, if_pos g.dyn1]; exact AState.set_ne _ _ (by omega)
    · rw [Mixed.crypted, if_pos g.dyn1]; simp [Mixed.moved, AState.set]
    · rw [ho]; rfl
  · obtain ⟨b0, b1, c, g, hc, rfl⟩ := h
    refine ⟨⟨(fun i hi => by simp [Query.uses] at hi), b1, g.buf1⟩, ?_⟩
    rintro d a B w1 - ⟨⟨rfl, b, hb, rfl⟩, rfl⟩
    rw [g.buf1] at hb; cases hb
    simp only [Seal.next]
    split
    · next h => exact ⟨0, fun _ => Nat.succ_pos _, b0, b1, c, g, hc, List.length_eq_zero_iff.1 (by omega), rfl⟩
    · next h => exact ⟨_, fun _ => Nat.lt_succ_self _, b0, b1, c, g, hc, fun h' => h (by rw [h']; rfl), rfl⟩
  · obtain ⟨b0, b1, c, g, hc, hne, rfl⟩ := h
    refine ⟨g.handle1, ?_⟩
    rintro d a B w1 hd (⟨e, -⟩ | ⟨b, hb, h⟩)
    · rw [g.buf1] at e; cases e
    rw [g.buf1] at hb; cases hb
    rcases h with ⟨rfl, rfl, rfl, rfl⟩ | ⟨j, l, rest, rfl, e1, e2, rfl, rfl, rfl⟩
    · exact ⟨_, fun h => absurd rfl h, b0, b1, c, g, hc, rfl⟩
    · have hj : j ≠ 0 := fun h => hd (by rw [h])
      have := List.length_pos_iff.2 hne
      have := congrArg List.length e1
      rw [List.length_append] at this
      refine ⟨_, fun _ => ?_, b0, { b1 with data := rest }, c, ⟨g.toSealing.to (A := A) g.buf0 g.dyn0 ?_, (by simp [Mixed.content, AState.set]), g.dyn1, g.all, g.inp, ?_⟩, hc, rfl⟩
      · simp only; omega
      · intro k hk; exact AState.set_ne _ _ (by omega)
      · rw [List.append_assoc, ← e1]; exact g.out

theorem seal_step (hd : dflt.Ok) (hn : 4 ≤ n) (hK0 : (K 0).length = 32) (hK1 : (K 1).length = 16) (hm : (m.length : Int) + 64 + cfg.growStep ≤ INT_MAX) (hp0 : 0 < cfg.growStep)
    {p : Seal} {x : IAct} (h : SealInv dflt K m n p A w μ) (hx : p.act = some x) : Proceeds cfg dflt K (SealInv dflt K m n) p.next A w μ x := by
  cases p with
  | key => exact seal_start hd hn (.inl rfl) h hx
  | iv => exact seal_start hd hn (.inr (.inl rfl)) h hx
  | inp => exact seal_start hd hn (.inr (.inr (.inl rfl))) h hx
  | out => exact seal_start hd hn (.inr (.inr (.inr rfl))) h hx
  | top => exact seal_fill hm hp0 (.inl rfl) h hx
  | grow j => exact seal_fill hm hp0 (.inr (.inl ⟨j, rfl⟩)) h hx
  | read => exact seal_fill hm hp0 (.inr (.inr rfl)) h hx
  | size => exact seal_pack hm hp0 (.inl rfl) h hx
  | pack j => exact seal_pack hm hp0 (.inr (.inl ⟨j, rfl⟩)) h hx
  | view => exact seal_pack hm hp0 (.inr (.inr (.inl rfl))) h hx
  | append => exact seal_pack hm hp0 (.inr (.inr (.inr rfl))) h hx
  | crypt => exact seal_send hK0 hK1 hm hp0 (.inl rfl) h hx
  | flush => exact seal_send hK0 hK1 hm hp0 (.inr (.inl rfl)) h hx
  | write => exact seal_send hK0 hK1 hm hp0 (.inr (.inr rfl)) h hx
  | stop => cases hx

end

/-! ## The second program -/

/-- There is one view, it is of use, and its bytes are `t`. -/
def Shows (K : Nat → List Byte) (A : Mixed) (t : List Byte) : Prop := ∃ v, A.views = [v] ∧ v ≠ .stale ∧ v.bytes K A.σ = t

theorem Shows.text {K : Nat → List Byte} {A : Mixed} {t : List Byte} (h : Shows K A t) : A.Fresh 0 ∧ A.text K 0 = t := by
  obtain ⟨v, h1, h2, h3⟩ := h
  simp only [Mixed.Fresh, Mixed.text, Mixed.view, h1, List.getD_cons_zero]
  exact ⟨h2, h3⟩

theorem Shows.shorten {K : Nat → List Byte} {A : Mixed} {l rest : List Byte} (h : Shows K A (l ++ rest)) {c : Cut} (hc : c = none ∧ rest = [] ∨ c = some (l.length, rest.length)) :
    Shows K (A.shorten 0 c) rest := by
  obtain ⟨v, h1, h2, h3⟩ := h
  refine ⟨v.cut c, by simp [Mixed.shorten, Mixed.view, h1], ?_, ?_⟩
  · cases v <;> cases c <;> simp_all [AView.cut]
  · rcases hc with ⟨rfl, rfl⟩ | rfl
    · cases v <;> rfl
    · cases v with
      | part r i n =>
        simp only [AView.bytes] at h3
        simp only [Mixed.shorten, AView.cut, AView.bytes]
        rw [← List.drop_drop]
        have h4 : (r.text K A.σ).drop i = l ++ rest ++ ((r.text K A.σ).drop i).drop n := by rw [← h3, List.take_append_drop]
        rw [h4, List.append_assoc, List.drop_left, List.take_left]
      | null => simp only [AView.bytes] at h3; rw [(List.append_eq_nil_iff.1 h3.symm).2]; rfl
      | stale => exact absurd rfl h2

def UnsealInv (dflt : Alloc) (K : Nat → List Byte) (m c : List Byte) (n : Nat) (p : Unseal) (A : Mixed) (w : World) (μ : Nat) : Prop :=
  let M := 2 * m.length
  match p with
  | .key => A = sealStart n ∧ w = ⟨c, []⟩ ∧ μ = M + 4 * c.length + 15
  | .iv => A.σ.Area 9 4 ∧ (∃ b, A.σ 2 = some (.buf b) ∧ b.data = K 0) ∧ A.σ 3 = none ∧ A.σ 0 = none ∧ A.views = [] ∧ w = ⟨c, []⟩ ∧ μ = M + 4 * c.length + 14
  | .inp => A.σ.Area 9 4 ∧ (∃ b, A.σ 2 = some (.buf b) ∧ b.data = K 0) ∧ (∃ b, A.σ 3 = some (.buf b) ∧ b.data = K 1) ∧ A.σ 0 = none ∧ A.views = [] ∧ w = ⟨c, []⟩ ∧
      μ = M + 4 * c.length + 13
  | .top => ∃ b0, Sealing K A b0 ∧ A.views = [] ∧ c = b0.data ++ w.inp ∧ w.out = [] ∧ μ = M + 4 * w.inp.length + 12
  | .grow j => ∃ b0, Sealing K A b0 ∧ A.views = [] ∧ c = b0.data ++ w.inp ∧ w.out = [] ∧ j = b0.data.length ∧ μ = M + 4 * w.inp.length + 11
  | .read => ∃ b0, Sealing K A b0 ∧ A.views = [] ∧ c = b0.data ++ w.inp ∧ w.out = [] ∧ b0.data.length < b0.cap ∧ μ = M + 4 * w.inp.length + 10
  | .crypt => ∃ b0, Sealing K A b0 ∧ A.views = [] ∧ b0.data = c ∧ w = ⟨[], []⟩ ∧ μ = M + 8
  | .view => ∃ b0, Sealing K A b0 ∧ A.views = [] ∧ b0.data = wire .BE .u32 m.length ++ m ∧ w = ⟨[], []⟩ ∧ μ = M + 7
  | .unpack => A.σ.Area 9 4 ∧ Shows K A (wire .BE .u32 m.length ++ m) ∧ w = ⟨[], []⟩ ∧ μ = M + 6
  | .check x => x = m.length ∧ Shows K A m ∧ w = ⟨[], []⟩ ∧ μ = M + 5
  | .left => ∃ t, Shows K A t ∧ w.inp = [] ∧ w.out ++ t = m ∧ μ = 2 * t.length + 2
  | .write => ∃ t, Shows K A t ∧ w.inp = [] ∧ w.out ++ t = m ∧ t ≠ [] ∧ μ = 2 * t.length + 1
  | .stop => w.inp = [] ∧ w.out = m ∧ μ = 0

section

variable {cfg : Cfg} {dflt : Alloc} {K : Nat → List Byte} {m c : List Byte} {n : Nat} {A : Mixed} {w : World} {μ : Nat}

theorem unseal_start (hd : dflt.Ok) (hn : 4 ≤ n) {p : Unseal} (hp : p = .key ∨ p = .iv ∨ p = .inp) (h : UnsealInv dflt K m c n p A w μ) {x : IAct} (hx : p.act = some x) :
    Proceeds cfg dflt K (UnsealInv dflt K m c n) p.next A w μ x := by
  rcases hp with rfl | rfl | rfl <;> cases hx
  · obtain ⟨rfl, rfl, rfl⟩ := h
    refine ⟨⟨rfl, hd, trivial⟩, ?_⟩
    rintro d a B w1 - ⟨⟨rfl, rfl⟩, rfl⟩
    exact ⟨_, fun _ => Nat.lt_succ_self _, ⟨n, rfl, hn⟩, ⟨_, rfl, rfl⟩, rfl, rfl, rfl, rfl, rfl⟩
  · obtain ⟨⟨n', h9, h9'⟩, ⟨b, hb, hb'⟩, h3, h0, hv, rfl, rfl⟩ := h
    refine ⟨⟨h3, hd, trivial⟩, ?_⟩
    rintro d a B w1 - ⟨⟨rfl, rfl⟩, rfl⟩
    exact ⟨_, fun _ => Nat.lt_succ_self _, ⟨n', h9, h9'⟩, ⟨b, hb, hb'⟩, ⟨_, rfl, rfl⟩, h0, by simp [Mixed.run, hv], rfl, rfl⟩
  · obtain ⟨⟨n', h9, h9'⟩, ⟨b, hb, hb'⟩, ⟨b', hc, hc'⟩, h0, hv, rfl, rfl⟩ := h
    refine ⟨⟨h0, hd, by decide⟩, ?_⟩
    rintro d a B w1 - ⟨⟨rfl, rfl⟩, rfl⟩
    exact ⟨_, fun _ => Nat.lt_succ_self _, ⟨[], 0, dflt⟩, ⟨rfl, hd.some, ⟨b, hb, hb'⟩, ⟨b', hc, hc'⟩, ⟨n', h9, h9'⟩⟩, by simp [Mixed.run, hv], rfl, rfl, rfl⟩

theorem unseal_fill (hm : (c.length : Int) + 44 + cfg.growStep ≤ INT_MAX) (hp0 : 0 < cfg.growStep) {p : Unseal} (hp : p = .top ∨ (∃ n, p = .grow n) ∨ p = .read)
    (h : UnsealInv dflt K m c n p A w μ) {x : IAct} (hx : p.act = some x) : Proceeds cfg dflt K (UnsealInv dflt K m c n) p.next A w μ x := by
  rcases hp with rfl | ⟨j, rfl⟩ | rfl <;> cases hx
  · obtain ⟨b0, g, hv, ht, ho, rfl⟩ := h
    refine ⟨⟨(fun i hi => by simp [Query.uses] at hi), b0, g.buf0⟩, ?_⟩
    rintro d a B w1 - ⟨⟨rfl, b, hb, rfl⟩, rfl⟩
    rw [g.buf0] at hb; cases hb
    exact ⟨_, fun _ => Nat.lt_succ_self _, b0, g, hv, ht, ho, rfl, rfl⟩
  · obtain ⟨b0, g, hv, ht, ho, rfl, rfl⟩ := h
    have hl := congrArg List.length ht
    rw [List.length_append] at hl
    obtain ⟨l1, l2⟩ := g.grow (cfg := cfg) (dflt := dflt) (w := w) hv (by omega) hp0
    refine ⟨l1, fun d a B w1 _ hs => ?_⟩
    obtain ⟨rfl, hv', hσ, b0', g', e, hc⟩ := l2 d a B w1 hs
    exact ⟨_, fun _ => Nat.lt_succ_self _, b0', g', hv', by rw [e]; exact ht, ho, by rw [e]; exact hc, rfl⟩
  · obtain ⟨b0, g, hv, ht, ho, hc, rfl⟩ := h
    obtain ⟨l1, l2⟩ := g.read (cfg := cfg) (dflt := dflt) (w := w) hv hc
    refine ⟨l1, fun d a B w1 hd hs => ?_⟩
    rcases l2 d a B w1 hd hs with ⟨rfl, rfl, rfl, rfl⟩ | ⟨l, rest, e, rfl, rfl, hl, hv', hσ, g'⟩
    · exact ⟨_, fun h => absurd rfl h, b0, g, hv, ht, ho, rfl⟩
    have htot : c = b0.data ++ l ++ rest := by rw [ht, e, List.append_assoc]
    simp only [Unseal.next]
    split
    · next h0 =>
      obtain rfl : l = [] := List.length_eq_zero_iff.1 (by omega)
      have hi := hl rfl
      rw [e] at hi
      simp only [List.nil_append] at hi
      subst hi
      exact ⟨_, fun _ => (by omega), _, g', hv', by simp only [htot, List.append_nil], by rw [← ho], rfl⟩
    · next h0 =>
      have := congrArg List.length e
      rw [List.length_append] at this
      refine ⟨_, fun _ => ?_, _, g', hv', htot, ho, rfl⟩
      simp only; omega

theorem unseal_open (hK0 : (K 0).length = 32) (hK1 : (K 1).length = 16) (hs : IsSealed (K 0) (K 1) m c) (hm : (c.length : Int) + 44 + cfg.growStep ≤ INT_MAX) (hm' : (m.length : Int) ≤ INT_MAX)
    (hp0 : 0 < cfg.growStep) {p : Unseal} (hp : p = .crypt ∨ p = .view ∨ p = .unpack ∨ (∃ x, p = .check x))
    (h : UnsealInv dflt K m c n p A w μ) {x : IAct} (hx : p.act = some x) : Proceeds cfg dflt K (UnsealInv dflt K m c n) p.next A w μ x := by
  rcases hp with rfl | rfl | rfl | ⟨j, rfl⟩ <;> cases hx
  · obtain ⟨b0, g, hv, rfl, rfl, rfl⟩ := h
    obtain ⟨k1, k2⟩ := g.keys hK0 hK1
    have e1 : (A.σ.data 2).take 32 = K 0 := by rw [g.keyData.1]; exact List.take_of_length_le (by omega)
    have e2 : (A.σ.data 3).take 16 = K 1 := by rw [g.keyData.2]; exact List.take_of_length_le (by omega)
    have hdec := deciphers_of_cbc hK0 hK1 hs
    refine ⟨⟨b0, ⟨g.buf0, .inr ⟨g.dyn0, ?_⟩, by decide, by decide, k1, k2, fun h => absurd g.dyn0 h⟩, _, by rw [e1, e2]; exact hdec⟩, ?_⟩
    · simp only [paddedLen]; omega
    rintro d a B w1 - ⟨rfl, rfl, b, out, hb, hc, rfl⟩
    rw [g.buf0] at hb; cases hb
    rw [e1, e2] at hc
    obtain rfl := hc.unique hdec
    rw [Mixed.crypted, if_pos g.dyn0]
    refine ⟨_, fun _ => Nat.lt_succ_self _, ⟨wire .BE .u32 m.length ++ m, max b0.cap (paddedLen b0.data.length), b0.al⟩, g.to (by simp [Mixed.moved, AState.set]) g.dyn0 ?_,
      by simp [Mixed.moved, hv], rfl, rfl, rfl⟩
    intro k hk; exact AState.set_ne _ _ (by omega)
  · obtain ⟨b0, g, hv, hb, rfl, rfl⟩ := h
    refine ⟨g.handle, ?_⟩
    rintro d a B w1 - ⟨⟨rfl, rfl⟩, rfl⟩
    refine ⟨_, fun _ => Nat.lt_succ_self _, g.area, ⟨.part (.buf 0) 0 b0.data.length, by simp [hv, AState.whole, g.buf0], (by intro h; cases h), ?_⟩, rfl, rfl⟩
    simp only [AView.bytes, Ref.text, AState.data, g.buf0, List.drop_zero, List.take_length, hb]
  · obtain ⟨har, hsh, rfl, rfl⟩ := h
    obtain ⟨f1, f2⟩ := hsh.text
    refine ⟨⟨har, f1, by rw [f2, List.length_append, wire_length]; exact Nat.le_add_right _ _⟩, ?_⟩
    rintro d a B w1 - ⟨rfl, x, rest, hr, e, rfl, rfl⟩
    rw [f2] at e
    obtain ⟨e3, rfl⟩ := List.append_inj e (by rw [wire_length, wire_length])
    have hr' : IntTy.u32.InRange (m.length : Int) := by
      simp only [INT_MAX] at hm'
      simp only [IntTy.InRange]; omega
    obtain rfl := wire_inj hr' hr e3
    refine ⟨_, fun _ => Nat.lt_succ_self _, rfl, hsh.shorten ?_, rfl, rfl⟩
    by_cases h0 : m = []
    · exact .inl ⟨by rw [if_pos h0], h0⟩
    · exact .inr (by rw [if_neg h0, wire_length])
  · obtain ⟨rfl, hsh, rfl, rfl⟩ := h
    obtain ⟨f1, f2⟩ := hsh.text
    refine ⟨⟨(fun i hi => by simp only [Query.uses, List.mem_singleton] at hi; subst hi; exact f1), trivial⟩, ?_⟩
    rintro d a B w1 - ⟨⟨rfl, rfl⟩, rfl⟩
    simp only [Unseal.next, f2, if_true]
    exact ⟨2 * m.length + 2, fun _ => (by omega), m, hsh, rfl, rfl, rfl⟩

theorem unseal_send {p : Unseal} (hp : p = .left ∨ p = .write) (h : UnsealInv dflt K m c n p A w μ) {x : IAct} (hx : p.act = some x) :
    Proceeds cfg dflt K (UnsealInv dflt K m c n) p.next A w μ x := by
  rcases hp with rfl | rfl <;> cases hx
  · obtain ⟨t, hsh, hi, ho, rfl⟩ := h
    obtain ⟨f1, f2⟩ := hsh.text
    refine ⟨⟨(fun i hi => by simp only [Query.uses, List.mem_singleton] at hi; subst hi; exact f1), trivial⟩, ?_⟩
    rintro d a B w1 - ⟨⟨rfl, rfl⟩, rfl⟩
    simp only [Unseal.next, f2]
    split
    · next h =>
      obtain rfl : t = [] := List.length_eq_zero_iff.1 (by omega)
      exact ⟨0, fun _ => Nat.succ_pos _, hi, by rw [← ho, List.append_nil], rfl⟩
    · next h => exact ⟨_, fun _ => Nat.lt_succ_self _, t, hsh, hi, ho, fun h' => h (by rw [h']; rfl), rfl⟩
  · obtain ⟨t, hsh, hi, ho, hne, rfl⟩ := h
    obtain ⟨f1, f2⟩ := hsh.text
    refine ⟨f1, ?_⟩
    rintro d a B w1 hd (⟨e, -⟩ | ⟨hnn, h⟩)
    · rw [Mixed.text, e] at f2
      exact absurd f2.symm hne
    rcases h with ⟨rfl, rfl, rfl, rfl⟩ | ⟨j, l, rest, rfl, e1, e2, rfl, rfl, rfl⟩
    · exact ⟨_, fun h => absurd rfl h, t, hsh, hi, ho, rfl⟩
    · rw [f2] at e1 e2
      subst e1
      have hj : j ≠ 0 := fun h => hd (by rw [h])
      have := List.length_pos_iff.2 hne
      have hl := List.length_append (as := l) (bs := rest)
      refine ⟨_, fun _ => ?_, rest, hsh.shorten ?_, hi, by rw [List.append_assoc]; exact ho, rfl⟩
      · omega
      · by_cases h0 : l ≠ [] ∧ rest = []
        · exact .inl ⟨by rw [if_pos h0], h0.2⟩
        · exact .inr (by rw [if_neg h0])

theorem unseal_step (hd : dflt.Ok) (hn : 4 ≤ n) (hK0 : (K 0).length = 32) (hK1 : (K 1).length = 16) (hs : IsSealed (K 0) (K 1) m c) (hm : (m.length : Int) + 64 + cfg.growStep ≤ INT_MAX)
    (hp0 : 0 < cfg.growStep) {p : Unseal} {x : IAct} (h : UnsealInv dflt K m c n p A w μ) (hx : p.act = some x) : Proceeds cfg dflt K (UnsealInv dflt K m c n) p.next A w μ x := by
  have hl := sealed_length hK0 hK1 hs
  simp only [paddedLen] at hl
  have hc : (c.length : Int) + 44 + cfg.growStep ≤ INT_MAX := by omega
  cases p with
  | key => exact unseal_start hd hn (.inl rfl) h hx
  | iv => exact unseal_start hd hn (.inr (.inl rfl)) h hx
  | inp => exact unseal_start hd hn (.inr (.inr rfl)) h hx
  | top => exact unseal_fill hc hp0 (.inl rfl) h hx
  | grow j => exact unseal_fill hc hp0 (.inr (.inl ⟨j, rfl⟩)) h hx
  | read => exact unseal_fill hc hp0 (.inr (.inr rfl)) h hx
  | crypt => exact unseal_open hK0 hK1 hs hc (by omega) hp0 (.inl rfl) h hx
  | view => exact unseal_open hK0 hK1 hs hc (by omega) hp0 (.inr (.inl rfl)) h hx
  | unpack => exact unseal_open hK0 hK1 hs hc (by omega) hp0 (.inr (.inr (.inl rfl))) h hx
  | check j => exact unseal_open hK0 hK1 hs hc (by omega) hp0 (.inr (.inr (.inr ⟨j, rfl⟩))) h hx
  | left => exact unseal_send (.inl rfl) h hx
  | write => exact unseal_send (.inr rfl) h hx
  | stop => cases hx

end

end CStr
