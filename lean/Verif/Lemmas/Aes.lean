import Verif.Lemmas.AesInverse
import Verif.Lemmas.BufLife
/-
  Helper lemmas for Props/Aes.lean: the key schedule and the agreement with FIPS 197.
-/
namespace CStr

/-! ### The S-box -/

namespace Fips

/-- The inverse of the affine transformation, used to find the inverse of a byte from its S-box entry. -/
def unaffine (b : Byte) : Byte :=
  let bit (i : Nat) : Bool := b.toNat.testBit (i % 8)
  UInt8.ofNat ((List.range 8).foldl (fun r i =>
    if bit (i + 2) ^^ bit (i + 5) ^^ bit (i + 7) ^^ (0x05 : Nat).testBit i then r + 2 ^ i else r) 0)

set_option maxRecDepth 10000 in
theorem sbox_inverse (x : Byte) :
    ((x = 0 ∧ unaffine (aes_sbox x) = 0) ∨ mul x (unaffine (aes_sbox x)) = 1) ∧ aes_sbox x = affine (unaffine (aes_sbox x)) :=
  byte_all (P := fun x => ((x = 0 ∧ unaffine (aes_sbox x) = 0) ∨ mul x (unaffine (aes_sbox x)) = 1) ∧ aes_sbox x = affine (unaffine (aes_sbox x)))
    (by decide +kernel) x

theorem zero_mul (x : Byte) : mul 0 x = 0 := (mul_xor_left x).zero

theorem isInverse_unique {x y z : Byte} (hy : IsInverse x y) (hz : IsInverse x z) : y = z := by
  rcases hy with ⟨rfl, rfl⟩ | hy <;> rcases hz with ⟨h, rfl⟩ | hz
  · rfl
  · rw [zero_mul] at hz; exact absurd hz (by decide)
  · subst h; rw [zero_mul] at hy; exact absurd hy (by decide)
  · calc y = mul (mul x z) y := by rw [hz, one_mul]
      _ = mul z (mul x y) := by rw [mul_comm x z, mul_assoc]
      _ = z := by rw [hy, mul_one]

theorem isSbox_aes : IsSbox aes_sbox := fun x => ⟨_, (sbox_inverse x).1, (sbox_inverse x).2⟩

theorem isSbox_unique {S : Byte → Byte} (h : IsSbox S) : S = aes_sbox := by
  funext x
  obtain ⟨y, hy, he⟩ := h x
  obtain ⟨z, hz, he'⟩ := isSbox_aes x
  rw [he, he', isInverse_unique hy hz]

end Fips

/-! ### The key schedule -/

theorem wordsOf_length (l : List Byte) : (wordsOf l).length = l.length / 4 := by
  induction l using wordsOf.induct with
  | case1 b0 b1 b2 b3 l ih => simp only [wordsOf, List.length_cons, ih]; omega
  | case2 l h =>
    rw [wordsOf]
    · rcases l with _ | ⟨a, _ | ⟨b, _ | ⟨c, _ | ⟨d, l⟩⟩⟩⟩ <;> simp
      exact absurd rfl (h a b c d l)
    · exact h

theorem wordsOf_get (l : List Byte) (i : Nat) (h : 4 * i + 3 < l.length) :
    (wordsOf l)[i]? = some ⟨l[4 * i], l[4 * i + 1], l[4 * i + 2], l[4 * i + 3]⟩ := by
  induction l using wordsOf.induct generalizing i with
  | case1 b0 b1 b2 b3 l ih =>
    cases i with
    | zero => rfl
    | succ i =>
      simp only [List.length_cons] at h
      rw [wordsOf, List.getElem?_cons_succ, ih i (by omega)]
      rfl
  | case2 l h' =>
    exfalso
    rcases l with _ | ⟨a, _ | ⟨b, _ | ⟨c, _ | ⟨d, l⟩⟩⟩⟩ <;> simp at h
    all_goals first | exact h' _ _ _ _ _ rfl | omega

theorem lor_disjoint (a b : Nat) (hb : b < 2 ^ 24) : b ||| a * 2 ^ 24 = b + a * 2 ^ 24 := by
  have := Nat.shiftLeft_add_eq_or_of_lt hb a
  rw [Nat.shiftLeft_eq] at this
  rw [Nat.or_comm, ← this, Nat.add_comm]

theorem lor_disjoint' (a b : Nat) (hb : b < 2 ^ 24) : b ||| 2 ^ 24 * a = b + 2 ^ 24 * a := by
  rw [Nat.mul_comm]; exact lor_disjoint a b hb

theorem aes_rot_little (w : AesWord) : aes_rot .little w = ⟨w.b1, w.b2, w.b3, w.b0⟩ := by
  obtain ⟨a, b, c, d⟩ := w
  have ha := a.toNat_lt
  have hb := b.toNat_lt
  have hc := c.toNat_lt
  have hd := d.toNat_lt
  have e1 : leVal [a, b, c, d] = a.toNat + 256 * (b.toNat + 256 * (c.toNat + 256 * d.toNat)) := by simp [leVal]
  have e2 : leVal [a, b, c, d] / 2 ^ 8 ||| leVal [a, b, c, d] * 2 ^ 24 % 2 ^ 32 = leVal [b, c, d, a] := by
    have h1 : leVal [a, b, c, d] / 2 ^ 8 = b.toNat + 256 * (c.toNat + 256 * d.toNat) := by rw [e1]; omega
    have h2 : leVal [a, b, c, d] * 2 ^ 24 % 2 ^ 32 = a.toNat * 2 ^ 24 := by rw [e1]; omega
    rw [h1, h2, lor_disjoint _ _ (by omega)]
    simp [leVal]; omega
  simp only [aes_rot, ofRepr, repr]
  rw [e2]
  have : leBytes 4 (leVal [b, c, d, a]) = [b, c, d, a] := leBytes_leVal rfl
  rw [this]

theorem aes_rot_big (w : AesWord) : aes_rot .big w = ⟨w.b3, w.b0, w.b1, w.b2⟩ := by
  obtain ⟨a, b, c, d⟩ := w
  have ha := a.toNat_lt
  have hb := b.toNat_lt
  have hc := c.toNat_lt
  have hd := d.toNat_lt
  have e1 : leVal [d, c, b, a] = d.toNat + 256 * (c.toNat + 256 * (b.toNat + 256 * a.toNat)) := by simp [leVal]
  have e2 : leVal [d, c, b, a] / 2 ^ 8 ||| leVal [d, c, b, a] * 2 ^ 24 % 2 ^ 32 = leVal [c, b, a, d] := by
    have h1 : leVal [d, c, b, a] / 2 ^ 8 = c.toNat + 256 * (b.toNat + 256 * a.toNat) := by rw [e1]; omega
    have h2 : leVal [d, c, b, a] * 2 ^ 24 % 2 ^ 32 = d.toNat * 2 ^ 24 := by rw [e1]; omega
    rw [h1, h2, lor_disjoint _ _ (by omega)]
    simp [leVal]; omega
  simp only [aes_rot, ofRepr, repr, List.reverse_cons, List.reverse_nil, List.nil_append, List.cons_append]
  rw [e2]
  have : leBytes 4 (leVal [c, b, a, d]) = [c, b, a, d] := leBytes_leVal rfl
  rw [this]
  rfl

theorem rc_at_eq (rc : Nat) (h : rc < 10) : rc_at rc = .ok (Fips.pow 2 rc) := by
  have : ∀ rc : Fin 10, rc_at rc = .ok (Fips.pow 2 rc) := by decide +kernel
  exact this ⟨rc, h⟩

/-- What iteration `i` of the key schedule stores. -/
def sched (h : Host) (nk i : Nat) (tmp old : AesWord) : AesWord :=
  old.xor (if i % nk = 0 then
      let t := (aes_rot h tmp).map aes_sbox
      { t with b0 := t.b0 ^^^ Fips.pow 2 (i / nk - 1) }
    else if nk = 8 ∧ i % 8 = 4 then tmp.map aes_sbox else tmp)

theorem aes_init_loop_ok (h : Host) (nk : Nat) (hnk : 4 ≤ nk) (n i next rc : Nat) (ctx : Ctx) (hl : ctx.length = i) (hi : nk ≤ i)
    (hhi : i + n ≤ 4 * (nk + 7)) (hnext : next = nk * (rc + 1)) (h1 : i ≤ next) (h2 : next < i + nk) :
    ∃ ctx', aes_init_loop h nk n i next rc ctx = .ok ctx' ∧ ctx'.length = i + n ∧ (∀ j, j < i → ctx'[j]? = ctx[j]?) ∧
      ∀ j, i ≤ j → j < i + n → ∃ tmp old, ctx'[j - 1]? = some tmp ∧ ctx'[j - nk]? = some old ∧ ctx'[j]? = some (sched h nk j tmp old) := by
  induction n generalizing i next rc ctx with
  | zero => exact ⟨ctx, rfl, by omega, fun _ _ => rfl, fun j h3 h4 => by omega⟩
  | succ n ih =>
    rw [aes_init_loop]
    rw [Ctx.word_ok (by omega : i - 1 < ctx.length), Res.bind_ok, Ctx.word_ok (by omega : i - nk < ctx.length), Res.bind_ok]
    have step : ∀ next' rc' (w : AesWord), w = sched h nk i ctx[i - 1] ctx[i - nk] → next' = nk * (rc' + 1) → i + 1 ≤ next' → next' < i + 1 + nk →
      ∃ ctx', aes_init_loop h nk n (i + 1) next' rc' (ctx ++ [w]) = .ok ctx' ∧ ctx'.length = i + (n + 1) ∧ (∀ j, j < i → ctx'[j]? = ctx[j]?) ∧
      ∀ j, i ≤ j → j < i + (n + 1) → ∃ tmp old, ctx'[j - 1]? = some tmp ∧ ctx'[j - nk]? = some old ∧ ctx'[j]? = some (sched h nk j tmp old) := by
      intro next' rc' w hw hn' h1' h2'
      obtain ⟨ctx', he, hl', hpre, hrec⟩ := ih (i + 1) next' rc' (ctx ++ [w]) (by simp [hl]) (by omega) (by omega) hn' h1' h2'
      refine ⟨ctx', he, by omega, fun j hj => ?_, fun j hj hj' => ?_⟩
      · rw [hpre j (by omega), List.getElem?_append_left (by omega)]
      · by_cases hji : j = i
        · subst hji
          refine ⟨ctx[j - 1], ctx[j - nk], ?_, ?_, ?_⟩
          · rw [hpre _ (by omega), List.getElem?_append_left (by omega), List.getElem?_eq_getElem]
          · rw [hpre _ (by omega), List.getElem?_append_left (by omega), List.getElem?_eq_getElem]
          · rw [hpre _ (by omega), ← hw]; simp [← hl]
        · exact hrec j (by omega) (by omega)
    by_cases hin : i ≠ next
    · rw [if_pos hin]
      have hm : i % nk ≠ 0 := by
        intro hm
        obtain ⟨k, hk⟩ := Nat.dvd_of_mod_eq_zero hm
        have a1 : k < rc + 1 := Nat.lt_of_mul_lt_mul_left (a := nk) (by omega)
        have a2 : nk * (k + 1) ≤ nk * (rc + 1) := Nat.mul_le_mul_left nk (by omega)
        rw [Nat.mul_add] at a2
        omega
      exact step next rc _ (by rw [sched, if_neg hm]) hnext (by omega) (by omega)
    · rw [if_neg hin]
      simp only [ne_eq, Decidable.not_not] at hin
      have hrc : rc < 10 := by
        have : nk * (rc + 1) < nk * 11 := by omega
        have := Nat.lt_of_mul_lt_mul_left this
        omega
      simp only [rc_at_eq rc hrc, Res.bind_ok]
      refine step _ _ _ ?_ ?_ ?_ ?_
      · rw [sched, if_pos (by rw [hin, hnext, Nat.mul_mod_right])]
        have : i / nk - 1 = rc := by rw [hin, hnext, Nat.mul_div_cancel_left _ (by omega)]; omega
        rw [this]
      · rw [hnext, Nat.mul_add nk (rc + 1) 1]; omega
      · omega
      · omega

theorem aes_init_ok (h : Host) (key : List Byte) (nk : Nat) (hnk : 4 ≤ nk) (hl : key.length = 4 * nk) :
    ∃ ctx, aes_init h key (32 * nk) = .ok ctx ∧ ctx.length = 4 * (nk + 7) ∧ (∀ j, j < nk → ctx[j]? = (wordsOf key)[j]?) ∧
      ∀ j, nk ≤ j → j < 4 * (nk + 7) → ∃ tmp old, ctx[j - 1]? = some tmp ∧ ctx[j - nk]? = some old ∧ ctx[j]? = some (sched h nk j tmp old) := by
  have e : key.length / 4 = nk := by omega
  have e1 : 32 * nk / 2 ^ 5 = nk := by omega
  have e2 : 32 * nk / 8 = key.length := by omega
  obtain ⟨ctx, h1, h2, h3, h4⟩ := aes_init_loop_ok h nk hnk (4 * (nk + 6 + 1) - nk) nk nk 0 (wordsOf key) (by rw [wordsOf_length, e])
    (Nat.le_refl _) (by omega) (by omega) (Nat.le_refl _) (by omega)
  refine ⟨ctx, ?_, by omega, h3, fun j hj hj' => h4 j hj (by omega)⟩
  rw [aes_init]
  simp only [e1, e2, Nat.lt_irrefl, if_false, List.take_length]
  exact h1


/-! ### Agreement with FIPS 197 -/

/-- The state of FIPS 197 made of a block: byte `4c + r` is in row `r`, column `c` (FIPS 197, section 3.4). -/
def toState (s : AesBlock) : Fips.State := fun r c => (s.row r).at c

/-- The word of FIPS 197 made of four bytes. -/
def toWord (w : AesWord) : Fips.Word := fun j => w.at j

theorem fin4_cases {P : Fin 4 → Prop} (h0 : P 0) (h1 : P 1) (h2 : P 2) (h3 : P 3) (i : Fin 4) : P i := by
  match i with
  | 0 => exact h0
  | 1 => exact h1
  | 2 => exact h2
  | 3 => exact h3

theorem toState_sub (s : AesBlock) : toState (s.map aes_sbox) = Fips.subBytes aes_sbox (toState s) := by
  funext r c
  revert r
  refine fin4_cases ?_ ?_ ?_ ?_ <;> revert c <;> exact fin4_cases rfl rfl rfl rfl

theorem toState_shift (s : AesBlock) : toState (shiftRows s) = Fips.shiftRows (toState s) := by
  funext r c
  revert r
  refine fin4_cases ?_ ?_ ?_ ?_ <;> revert c <;> exact fin4_cases rfl rfl rfl rfl

theorem mixcol_eq (x : AesWord) (r : Fin 4) : (aes_mixcol x).at r =
    Fips.add (Fips.add (Fips.mul 2 (x.at r)) (Fips.mul 3 (x.at (r + 1)))) (Fips.add (x.at (r + 2)) (x.at (r + 3))) := by
  obtain ⟨a, b, c, d⟩ := x
  revert r
  refine fin4_cases ?_ ?_ ?_ ?_
  · show gf256mul 2 (a ^^^ b) 0x1b ^^^ a ^^^ (a ^^^ b ^^^ c ^^^ d) = (Fips.mul 2 a ^^^ Fips.mul 3 b) ^^^ (c ^^^ d)
    simp only [gf256mul_eq, Fips.mul_add, Fips.mul_three]; xor_ac
  · show gf256mul 2 (b ^^^ c) 0x1b ^^^ b ^^^ (a ^^^ b ^^^ c ^^^ d) = (Fips.mul 2 b ^^^ Fips.mul 3 c) ^^^ (d ^^^ a)
    simp only [gf256mul_eq, Fips.mul_add, Fips.mul_three]; xor_ac
  · show gf256mul 2 (c ^^^ d) 0x1b ^^^ c ^^^ (a ^^^ b ^^^ c ^^^ d) = (Fips.mul 2 c ^^^ Fips.mul 3 d) ^^^ (a ^^^ b)
    simp only [gf256mul_eq, Fips.mul_add, Fips.mul_three]; xor_ac
  · show gf256mul 2 (d ^^^ a) 0x1b ^^^ d ^^^ (a ^^^ b ^^^ c ^^^ d) = (Fips.mul 2 d ^^^ Fips.mul 3 a) ^^^ (b ^^^ c)
    simp only [gf256mul_eq, Fips.mul_add, Fips.mul_three]; xor_ac

theorem row_at (s : AesBlock) (r c : Fin 4) : (s.row r).at c = (match c with | 0 => s.c0 | 1 => s.c1 | 2 => s.c2 | 3 => s.c3).at r := by
  revert c
  exact fin4_cases rfl rfl rfl rfl

theorem AesWord.at_mod (w : AesWord) (i : Nat) : w.at (i % 4) = w.at i := by simp [AesWord.at]

theorem toState_mix (s : AesBlock) : toState (mix s) = Fips.mixColumns (toState s) := by
  funext r c
  simp only [toState, Fips.mixColumns, row_at, mix]
  revert c
  refine fin4_cases ?_ ?_ ?_ ?_ <;> simp only [mixcol_eq, Fin.val_add, AesWord.at_mod] <;> rfl

theorem toState_xor (s k : AesBlock) (w : Fin 4 → Fips.Word) (h : ∀ r c, w c r = toState k r c) :
    toState (s.xor k) = Fips.addRoundKey (toState s) w := by
  funext r c
  simp only [Fips.addRoundKey, h]
  revert r
  refine fin4_cases ?_ ?_ ?_ ?_ <;> revert c <;> exact fin4_cases rfl rfl rfl rfl

theorem toState_encMid {k : Nat → AesBlock} {w : Nat → Fips.Word} (n : Nat) (s : AesBlock)
    (hw : ∀ i, i ≤ n → ∀ r c, Fips.roundKey w i c r = toState (k i) r c) :
    toState (encMid k n 1 s) = (List.range n).foldl
      (fun s i => Fips.addRoundKey (Fips.mixColumns (Fips.shiftRows (Fips.subBytes aes_sbox s))) (Fips.roundKey w (i + 1))) (toState s) := by
  induction n with
  | zero => rfl
  | succ n ih =>
    rw [encMid_snoc, List.range_succ, List.foldl_append, ← ih (fun i hi => hw i (by omega))]
    simp only [List.foldl_cons, List.foldl_nil]
    rw [enc_round_eq, toState_xor _ _ _ (hw (1 + n) (by omega)), toState_mix, toState_shift, toState_sub, Nat.add_comm 1 n]

theorem toState_encAll {k : Nat → AesBlock} {w : Nat → Fips.Word} (n : Nat) (s : AesBlock)
    (hw : ∀ i, i ≤ n + 1 → ∀ r c, Fips.roundKey w i c r = toState (k i) r c) :
    toState (encAll k (n + 1) s) = Fips.cipher aes_sbox (n + 1) w (toState s) := by
  rw [encAll, encFold_mid, enc_last_eq, Nat.add_comm 1 n, toState_xor _ _ _ (hw (n + 1) (by omega)), toState_shift, toState_sub,
    toState_encMid n _ (fun i hi => hw i (by omega)), toState_xor _ _ _ (hw 0 (by omega))]
  rfl

theorem toWord_rot (w : AesWord) : toWord (aes_rot .little w) = Fips.rotWord (toWord w) := by
  rw [aes_rot_little]
  funext j
  revert j
  exact fin4_cases rfl rfl rfl rfl

theorem toWord_map (w : AesWord) : toWord (w.map aes_sbox) = Fips.subWord aes_sbox (toWord w) := by
  funext j
  revert j
  exact fin4_cases rfl rfl rfl rfl

theorem toWord_xor (w x : AesWord) (j : Fin 4) : toWord (w.xor x) j = Fips.add (toWord w j) (toWord x j) := by
  revert j
  exact fin4_cases rfl rfl rfl rfl

theorem toWord_rc (w : AesWord) (c : Byte) (j : Fin 4) : toWord { w with b0 := w.b0 ^^^ c } j = Fips.add (toWord w j) (if j = 0 then c else 0) := by
  revert j
  refine fin4_cases ?_ ?_ ?_ ?_ <;> simp [toWord, AesWord.at, Fips.add]

/-- The key schedule of the code is that of FIPS 197. -/
theorem expansion_eq {nk : Nat} (hnk : nk = 4 ∨ nk = 6 ∨ nk = 8) {ctx : Ctx} {key w : Nat → Fips.Word} (hl : ctx.length = 4 * (nk + 7))
    (hkey : ∀ i x, i < nk → ctx[i]? = some x → key i = toWord x)
    (hrec : ∀ j, nk ≤ j → j < 4 * (nk + 7) → ∃ tmp old, ctx[j - 1]? = some tmp ∧ ctx[j - nk]? = some old ∧ ctx[j]? = some (sched .little nk j tmp old))
    (hw : Fips.IsExpansion aes_sbox nk (nk + 6) key w) (i : Nat) (x : AesWord) (hx : ctx[i]? = some x) : w i = toWord x := by
  induction i using Nat.strongRecOn generalizing x with
  | ind i ih =>
    have hi : i < 4 * (nk + 7) := by
      rw [← hl]
      exact (List.getElem?_eq_some_iff.1 hx).1
    by_cases h : i < nk
    · rw [hw.1 i h, hkey i x h hx]
    · obtain ⟨tmp, old, h1, h2, h3⟩ := hrec i (by omega) hi
      rw [hx] at h3
      cases h3
      rw [hw.2 i (by omega) (by omega), ih (i - 1) (by omega) tmp h1, ih (i - nk) (by omega) old h2]
      funext j
      rw [sched, toWord_xor]
      congr 1
      have hnk' : (6 < nk ∧ i % nk = 4) = (nk = 8 ∧ i % 8 = 4) := by
        rcases hnk with rfl | rfl | rfl <;> simp
      simp only [hnk']
      split
      · rw [toWord_rc, toWord_map, toWord_rot]; rfl
      · split
        · rw [toWord_map]
        · rfl

theorem roundKey_eq {ctx : Ctx} {w : Nat → Fips.Word} (h : ∀ i x, ctx[i]? = some x → w i = toWord x) {k : Nat → AesBlock} {N : Nat}
    (hk : ctx.Keys k N) (i : Nat) (hi : i < N) (r c : Fin 4) : Fips.roundKey w i c r = toState (k i) r c := by
  have hk := hk i hi
  have word : ∀ j y, ctx.word j = .ok y → w j = toWord y := by
    intro j y hj
    unfold Ctx.word at hj
    cases hc : ctx[j]? with
    | none => rw [hc] at hj; cases hj
    | some z => rw [hc] at hj; cases hj; exact h j _ hc
  unfold Ctx.key at hk
  cases h0 : ctx.word (4 * i) <;> rw [h0] at hk <;> simp at hk
  cases h1 : ctx.word (4 * i + 1) <;> rw [h1] at hk <;> simp at hk
  cases h2 : ctx.word (4 * i + 2) <;> rw [h2] at hk <;> simp at hk
  cases h3 : ctx.word (4 * i + 3) <;> rw [h3] at hk <;> simp at hk
  rw [← hk]
  simp only [Fips.roundKey, toState, row_at]
  revert c
  refine fin4_cases ?_ ?_ ?_ ?_
  · exact congrFun (word _ _ h0) r
  · exact congrFun (word _ _ h1) r
  · exact congrFun (word _ _ h2) r
  · exact congrFun (word _ _ h3) r

theorem isState_bytes (s : AesBlock) : Fips.IsState s.bytes (toState s) := by
  refine ⟨rfl, fun r c => ?_⟩
  revert r
  refine fin4_cases ?_ ?_ ?_ ?_ <;> revert c <;> exact fin4_cases rfl rfl rfl rfl

theorem isState_unique {l : List Byte} {s t : Fips.State} (hs : Fips.IsState l s) (ht : Fips.IsState l t) : s = t := by
  funext r c
  have := hs.2 r c
  rw [ht.2 r c] at this
  exact (Option.some.inj this).symm

theorem isKey_word {nk : Nat} {l : List Byte} {key : Nat → Fips.Word} (h : Fips.IsKey nk l key) (i : Nat) (hi : i < nk) (x : AesWord)
    (hx : (wordsOf l)[i]? = some x) : key i = toWord x := by
  have hl := h.1
  rw [wordsOf_get l i (by omega)] at hx
  cases hx
  funext j
  have get : ∀ n (hn : n < l.length), l[n]? = some l[n] := fun n hn => List.getElem?_eq_getElem hn
  have := h.2 i hi j
  revert this
  revert j
  refine fin4_cases ?_ ?_ ?_ ?_ <;> intro h
  · rw [get _ (by show 4 * i + 0 < _; omega)] at h; exact (Option.some.inj h).symm
  · rw [get _ (by show 4 * i + 1 < _; omega)] at h; exact (Option.some.inj h).symm
  · rw [get _ (by show 4 * i + 2 < _; omega)] at h; exact (Option.some.inj h).symm
  · rw [get _ (by show 4 * i + 3 < _; omega)] at h; exact (Option.some.inj h).symm

theorem exists_key {nk : Nat} {l : List Byte} (h : l.length = 4 * nk) : ∃ key, Fips.IsKey nk l key :=
  ⟨fun i j => if hi : 4 * i + j.val < l.length then l[4 * i + j.val] else 0, h, fun i hi j => by
    have : 4 * i + j.val < l.length := by omega
    simp only [dif_pos this, List.getElem?_eq_getElem this]⟩

/-- The words of a context as the words of FIPS 197. -/
theorem exists_words (ctx : Ctx) : ∃ w : Nat → Fips.Word, ∀ i x, ctx[i]? = some x → w i = toWord x :=
  ⟨fun i => match ctx[i]? with | some x => toWord x | none => fun _ => 0, fun i x h => by simp only [h]⟩

theorem context_expansion {nk : Nat} (hnk : Fips.IsKeyLength nk) {ctx : Ctx} {key w : Nat → Fips.Word} (hl : ctx.length = 4 * (nk + 7))
    (hkey : ∀ i x, i < nk → ctx[i]? = some x → key i = toWord x)
    (hrec : ∀ j, nk ≤ j → j < 4 * (nk + 7) → ∃ tmp old, ctx[j - 1]? = some tmp ∧ ctx[j - nk]? = some old ∧ ctx[j]? = some (sched .little nk j tmp old))
    (hw : ∀ i x, ctx[i]? = some x → w i = toWord x) : Fips.IsExpansion aes_sbox nk (Fips.rounds nk) key w := by
  refine ⟨fun i hi => ?_, fun i hi hi' => ?_⟩
  · obtain ⟨x, hx⟩ : ∃ x, ctx[i]? = some x := ⟨_, List.getElem?_eq_getElem (by omega)⟩
    rw [hw i x hx, hkey i x hi hx]
  · obtain ⟨tmp, old, h1, h2, h3⟩ := hrec i hi (by unfold Fips.rounds at hi'; omega)
    rw [hw i _ h3, hw _ _ h1, hw _ _ h2]
    funext j
    rw [sched, toWord_xor]
    congr 1
    have hnk' : (nk = 8 ∧ i % 8 = 4) = (6 < nk ∧ i % nk = 4) := by
      rcases hnk with rfl | rfl | rfl <;> simp
    simp only [hnk']
    split
    · rw [toWord_rc, toWord_map, toWord_rot]; rfl
    · split
      · rw [toWord_map]
      · rfl

end CStr
