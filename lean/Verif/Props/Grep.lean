import Verif.Lemmas.GrepStep
import Verif.Props.Filter
/-! Property C87, a program from one end to the other: the filter of Spec/Grep.lean. -/
namespace CStr

/-- What the operating system may do for the following theorems: a call may fail or transfer a part, but does not report the end of the input before the end. -/
def Honest (os : Nat → Option Nat) : Prop := ∀ k, os k ≠ some 0

/-- The program is legal for ever, and its invariant holds. -/
theorem grep_runs {cfg : Cfg} (hcfg : cfg.Ok) {dflt : Alloc} (hd : dflt.Ok) {K : Nat → List Byte} (hK : K 0 = [10]) {os : Nat → Option Nat} (hos : Honest os)
    {inp : List Byte} (hi : (inp.length : Int) + cfg.growStep ≤ INT_MAX) (n : Nat) :
    LegalIPlay cfg dflt K os grep n [] .start ⟨inp, []⟩ ∧
    ∀ t A w, IPlays cfg dflt K os grep n [] .start ⟨inp, []⟩ t A w → ∃ μ, GrepInv dflt K inp ((Machine.mk .empty0 Place.act Place.next).state t) A w μ := by
  have h0 : GrepInv dflt K inp ((Machine.mk .empty0 Place.act Place.next).state []) .start ⟨inp, []⟩ (16 * inp.length + 11) := ⟨rfl, rfl, rfl, rfl, rfl⟩
  refine machine_inv (m := ⟨.empty0, Place.act, Place.next⟩) (Good := (· ≠ some 0)) hos (Inv := fun p A w => ∃ μ, GrepInv dflt K inp p A w μ) ?_ n ⟨_, h0⟩
  rintro p A w x ⟨μ, h⟩ hx
  obtain ⟨h1, h2⟩ := grep_step hd hK hi hcfg.pos h hx
  refine ⟨h1, fun d a B w1 hd hs => ?_⟩
  obtain ⟨μ', -, h3⟩ := h2 d a B w1 hd hs
  exact ⟨μ', h3⟩

theorem grep_done {cfg : Cfg} (hcfg : cfg.Ok) {dflt : Alloc} (hd : dflt.Ok) {K : Nat → List Byte} (hK : K 0 = [10]) {os : Nat → Option Nat} (hos : Honest os) {ls : List (List Byte)} {r : List Byte}
    (hls : ∀ l ∈ ls, (10 : Byte) ∉ l) (hr : (10 : Byte) ∉ r) (hi : ((joinLines ls ++ r).length : Int) + cfg.growStep ≤ INT_MAX) {n : Nat} {t : List Answer} {A : Mixed} {w : World}
    (h1 : IPlays cfg dflt K os grep n [] .start ⟨joinLines ls ++ r, []⟩ t A w) (hn : grep t = none) :
    w.inp = [] ∧ w.out = joinLines (ls.filter fun l => decide (K 1 <:+: l)) ++ (if K 1 <:+: r then r else []) := by
  obtain ⟨μ, h⟩ := (grep_runs hcfg hd hK hos hi n).2 t A w h1
  have hn : Place.act ((Machine.mk .empty0 Place.act Place.next).state t) = none := hn
  cases hp : (Machine.mk .empty0 Place.act Place.next).state t <;> rw [hp] at hn <;> try cases hn
  rw [hp] at h
  obtain ⟨v, done, pend, b0, b1, g, hw, hpend, hb, -⟩ := h
  have ht := g.total
  rw [hw, List.append_nil] at ht
  obtain ⟨rfl, rfl⟩ := lines_unique hls g.lines hr hpend ht
  have ho := g.out
  rw [hb, List.append_nil] at ho
  exact ⟨hw, ho⟩

theorem grep_ends {cfg : Cfg} (hcfg : cfg.Ok) {dflt : Alloc} (hd : dflt.Ok) {K : Nat → List Byte} (hK : K 0 = [10]) {os : Nat → Option Nat} (hos : ∀ k, ∃ j, os k = some (j + 1)) {inp : List Byte}
    (hi : (inp.length : Int) + cfg.growStep ≤ INT_MAX) {n : Nat} (hn : 16 * inp.length + 11 < n) {t : List Answer} {A : Mixed} {w : World}
    (h1 : IPlays cfg dflt K os grep n [] .start ⟨inp, []⟩ t A w) : grep t = none := by
  have h0 : GrepInv dflt K inp ((Machine.mk .empty0 Place.act Place.next).state []) .start ⟨inp, []⟩ (16 * inp.length + 11) := ⟨rfl, rfl, rfl, rfl, rfl⟩
  refine machine_ends (m := ⟨.empty0, Place.act, Place.next⟩) (Good := fun d => ∃ j, d = some (j + 1)) hos (Inv := GrepInv dflt K inp) ?_ n h0 hn _ _ _ h1
  rintro p A w μ x h hx d a B w1 ⟨j, rfl⟩ hs
  obtain ⟨μ', h4, h5⟩ := (grep_step hd hK hi hcfg.pos h hx).2 _ a B w1 (by simp) hs
  exact ⟨μ', h4 (by simp), h5⟩

/-- C87. The filter is correct for every input, every text to look for and every way in which the operating system divides the transfers: it never does anything illegal, for any number of
actions, and when it has finished it has read all its input and written exactly those lines that contain the text, in order, each with its terminator, then the unterminated rest if it contains the
text. -/
theorem C87_grep {cfg : Cfg} (hcfg : cfg.Ok) {dflt : Alloc} (hd : dflt.Ok) {K : Nat → List Byte} {ka : Nat → Addr} {s : St} (hs : Start K ka s) (hK : K 0 = [10])
    {os : Nat → Option Nat} (hos : Honest os) {ls : List (List Byte)} {r : List Byte} (hls : ∀ l ∈ ls, (10 : Byte) ∉ l) (hr : (10 : Byte) ∉ r)
    (hi : ((joinLines ls ++ r).length : Int) + cfg.growStep ≤ INT_MAX) (n : Nat) :
    iplay cfg dflt K ka os grep n [] (.start s) ⟨joinLines ls ++ r, []⟩ = .env .alloc ∨
    ∃ t X w, iplay cfg dflt K ka os grep n [] (.start s) ⟨joinLines ls ++ r, []⟩ = .ok (t, X, w) ∧
      (grep t = none → w.inp = [] ∧ w.out = joinLines (ls.filter fun l => decide (K 1 <:+: l)) ++ (if K 1 <:+: r then r else [])) := by
  obtain ⟨hl, -⟩ := grep_runs hcfg hd hK hos hi n
  rcases C87_refinement hcfg os grep n hs.mrep _ [] hl with e | ⟨t, A, X, w, h1, h2, -⟩
  · exact .inl e
  exact .inr ⟨t, X, w, h2, grep_done hcfg hd hK hos hls hr hi h1⟩

/-- C87. If no call fails the filter finishes, after at most 16 actions for each byte of input and 11 more: then its output is complete. -/
theorem C87_grep_finishes {cfg : Cfg} (hcfg : cfg.Ok) {dflt : Alloc} (hd : dflt.Ok) {K : Nat → List Byte} {ka : Nat → Addr} {s : St} (hs : Start K ka s) (hK : K 0 = [10])
    {os : Nat → Option Nat} (hos : ∀ k, ∃ j, os k = some (j + 1)) {ls : List (List Byte)} {r : List Byte} (hls : ∀ l ∈ ls, (10 : Byte) ∉ l) (hr : (10 : Byte) ∉ r)
    (hi : ((joinLines ls ++ r).length : Int) + cfg.growStep ≤ INT_MAX) (n : Nat) (hn : 16 * (joinLines ls ++ r).length + 11 < n) :
    iplay cfg dflt K ka os grep n [] (.start s) ⟨joinLines ls ++ r, []⟩ = .env .alloc ∨
    ∃ t X w, iplay cfg dflt K ka os grep n [] (.start s) ⟨joinLines ls ++ r, []⟩ = .ok (t, X, w) ∧ grep t = none ∧
      w.inp = [] ∧ w.out = joinLines (ls.filter fun l => decide (K 1 <:+: l)) ++ (if K 1 <:+: r then r else []) := by
  have hos' : Honest os := fun k h => by obtain ⟨j, e⟩ := hos k; rw [h] at e; cases e
  obtain ⟨hl, -⟩ := grep_runs hcfg hd hK hos' hi n
  rcases C87_grep hcfg hd hs hK hos' hls hr hi n with e | ⟨t, X, w, h2, h3⟩
  · exact .inl e
  rcases C87_refinement hcfg os grep n hs.mrep _ [] hl with e | ⟨t', A, X', w', h1, h2', -⟩
  · exact .inl e
  rw [h2] at h2'; cases h2'
  have fin : grep t = none := grep_ends hcfg hd hK hos hi hn h1
  exact .inr ⟨t, X, w, h2, fin, h3 fin⟩

/-! ### Stopped anywhere -/

theorem lines_prefix {ls done : List (List Byte)} {r x : List Byte} (hls : ∀ l ∈ ls, (10 : Byte) ∉ l) (hr : (10 : Byte) ∉ r) (hd : ∀ l ∈ done, (10 : Byte) ∉ l)
    (h : joinLines ls ++ r = joinLines done ++ x) : ∃ more, ls = done ++ more := by
  induction done generalizing ls with
  | nil => exact ⟨ls, rfl⟩
  | cons d ds ih =>
    rw [joinLines_cons] at h
    cases ls with
    | nil =>
      exfalso; apply hr
      rw [show r = d ++ [10] ++ joinLines ds ++ x from h]; simp
    | cons l ls =>
      rw [joinLines_cons] at h
      simp only [List.append_assoc, List.cons_append, List.nil_append] at h
      obtain ⟨rfl, g⟩ := line_unique (hls l (by simp)) (hd d (by simp)) h
      obtain ⟨more, e⟩ := ih (fun l hl => hls l (by simp [hl])) (fun l hl => hd l (by simp [hl])) g
      exact ⟨more, by rw [e]; rfl⟩

/-- C87. Wherever the filter is stopped, what it has written so far is the beginning of the right output. -/
theorem C87_grep_prefix {cfg : Cfg} (hcfg : cfg.Ok) {dflt : Alloc} (hd : dflt.Ok) {K : Nat → List Byte} {ka : Nat → Addr} {s : St} (hs : Start K ka s) (hK : K 0 = [10])
    {os : Nat → Option Nat} (hos : Honest os) {ls : List (List Byte)} {r : List Byte} (hls : ∀ l ∈ ls, (10 : Byte) ∉ l) (hr : (10 : Byte) ∉ r)
    (hi : ((joinLines ls ++ r).length : Int) + cfg.growStep ≤ INT_MAX) {n : Nat} {t : List Answer} {X : MState} {w : World}
    (h : iplay cfg dflt K ka os grep n [] (.start s) ⟨joinLines ls ++ r, []⟩ = .ok (t, X, w)) :
    w.out <+: joinLines (ls.filter fun l => decide (K 1 <:+: l)) ++ (if K 1 <:+: r then r else []) := by
  obtain ⟨hl, hinv⟩ := grep_runs hcfg hd hK hos hi n
  rcases C87_refinement hcfg os grep n hs.mrep _ [] hl with e | ⟨t', A, X', w', h1, h2, -⟩
  · rw [h] at e; cases e
  rw [h] at h2; cases h2
  obtain ⟨μ, hp⟩ := hinv t A w h1
  have some' : ∀ {v done pend b0 b1}, Grepping K (joinLines ls ++ r) A w v done pend (found K done) b0 b1 →
      w.out <+: joinLines (ls.filter fun l => decide (K 1 <:+: l)) ++ (if K 1 <:+: r then r else []) := by
    intro v done pend b0 b1 g
    obtain ⟨more, rfl⟩ := lines_prefix hls hr g.lines (by rw [g.total, List.append_assoc])
    refine List.IsPrefix.trans ⟨_, g.out⟩ ?_
    rw [List.filter_append, joinLines_append, List.append_assoc]
    exact List.prefix_append _ _
  have all : ∀ {v done pend b0 b1}, Grepping K (joinLines ls ++ r) A w v done pend (foundAll K done pend) b0 b1 → w.inp = [] → 10 ∉ pend →
      w.out <+: joinLines (ls.filter fun l => decide (K 1 <:+: l)) ++ (if K 1 <:+: r then r else []) := by
    intro v done pend b0 b1 g hw hpend
    have ht := g.total
    rw [hw, List.append_nil] at ht
    obtain ⟨rfl, rfl⟩ := lines_unique hls g.lines hr hpend ht
    exact ⟨_, g.out⟩
  have none' : w = ⟨joinLines ls ++ r, []⟩ → w.out <+: joinLines (ls.filter fun l => decide (K 1 <:+: l)) ++ (if K 1 <:+: r then r else []) := by
    rintro rfl; exact List.nil_prefix
  cases hq : (Machine.mk .empty0 Place.act Place.next).state t <;> rw [hq] at hp
  case empty0 | empty1 | needle => exact none' hp.2.2.2.1
  case top | grow | read | src | rest => obtain ⟨done, pend, b0, b1, g, -⟩ := hp; exact some' g
  case split | valid | has | app => obtain ⟨-, -, done, pend, b0, b1, g, -⟩ := hp; exact some' g
  case keep | lastHas | lastApp => obtain ⟨-, done, pend, b0, b1, g, -⟩ := hp; exact some' g
  case eol =>
    obtain ⟨-, -, done, ln, pend, b0, b1, g, -, -, hin⟩ := hp
    obtain ⟨more, rfl⟩ := lines_prefix hls hr g.lines (by rw [g.total, List.append_assoc])
    refine List.IsPrefix.trans ⟨_, g.out⟩ ?_
    rw [List.filter_append, List.filter_append, joinLines_append, joinLines_append, List.filter_cons_of_pos (by simpa using hin), List.filter_nil, joinLines_cons]
    simp only [found, selected, List.append_assoc]
    exact (List.prefix_append_right_inj _).2 (List.prefix_append _ _)
  case flush v f | write v f =>
    cases f
    · obtain ⟨done, pend, b0, b1, g, -⟩ := hp; exact some' g
    · obtain ⟨done, pend, b0, b1, g, hw, hpend, -⟩ := hp; exact all g hw hpend
  case stop => obtain ⟨v, done, pend, b0, b1, g, hw, hpend, -⟩ := hp; exact all g hw hpend

/-! ### Non-vacuity -/

/-- The newline and the text "ab" are in memory, and the allocator answers with ever higher addresses. -/
def grepSt : St where
  mem := fun a => if a < 66 then memAt 64 [10, 0] a else memAt 96 [97, 98, 0] a
  live := fun _ => none
  picks := fun i => ⟨4096 + 65536 * i, fun _ => 170⟩
  calls := 0
  log := []

def grepK : Nat → List Byte
  | 0 => [10]
  | _ => [97, 98]

def grepKa : Nat → Addr
  | 0 => 64
  | _ => 96

theorem grepStart : Start grepK grepKa grepSt := by
  refine ⟨fun _ => rfl, fun i => by simp only [grepSt]; omega, fun k => ?_⟩
  match k with
  | 0 => exact ⟨by decide, by decide, by intro i hi; match i, hi with | 0, _ => rfl | 1, _ => rfl⟩
  | k + 1 => exact ⟨(by decide : (0 : Int) < 96), (by decide : ((2 : Nat) : Int) ≤ INT_MAX), by intro i hi; match i, hi with | 0, _ => rfl | 1, _ => rfl | 2, _ => rfl⟩

/-- Two bytes at a time, every fifth call fails. -/
def grepOs : Nat → Option Nat := fun k => if k % 5 = 0 then none else some 2

example : Honest grepOs := by
  intro k h
  unfold grepOs at h
  split at h <;> cases h

/-- "cab", "x", "abab", "", and the rest "ab". -/
def grepText : List Byte := [99, 97, 98, 10, 120, 10, 97, 98, 97, 98, 10, 10, 97, 98]

example : grepText = joinLines [[99, 97, 98], [120], [97, 98, 97, 98], []] ++ [97, 98] := by decide +kernel

/-- The run by the modelled functions: "cab", "abab", "ab". -/
example : ((iplay exCfg ⟨0, 1⟩ grepK grepKa grepOs grep 1000 [] (.start grepSt) ⟨grepText, []⟩).bind fun r => .ok (grep r.1 |>.isNone, r.2.2.inp, r.2.2.out)) =
    .ok (true, [], [99, 97, 98, 10, 97, 98, 97, 98, 10, 97, 98]) := by decide +kernel

/-- Stopped after 45 actions it has written "ca". -/
example : ((iplay exCfg ⟨0, 1⟩ grepK grepKa grepOs grep 45 [] (.start grepSt) ⟨grepText, []⟩).bind fun r => .ok (grep r.1 |>.isNone, r.2.2.out)) =
    .ok (false, [99, 97]) := by decide +kernel

end CStr
