import Verif.Spec.Hex
import Verif.Props.Replace
import Verif.Props.Agree
/-
  C78: bytes written as hexadecimal text and read back.
-/
namespace CStr

/-- `%hhX` with its argument. -/
def hexItems (c : Byte) : List FmtItem := [.conv ⟨[], none, none, .hh, 88, .hex c.toNat⟩]

theorem hexItems_output (c : Byte) : formatOutput (hexItems c) = [hexChar (c.toNat / 16), hexChar (c.toNat % 16)] := by
  have h := c.toNat_lt
  have e : c.toNat / 16 % 16 = c.toNat / 16 := by omega
  simp [hexItems, formatOutput, formatOutputFrom, FmtItem.output, Conv.output, Conv.field, Conv.left, Conv.minWidth, Conv.digitCount, LenMod.bytes,
    Conv.hexDigits, List.range, List.range.loop, hexChar, e]

/-- A text of a format outside the buffer stays readable while the buffer changes. -/
theorem hexItems_apart {s : St} {p fmt : Addr} {n : Nat} {c : Byte} (h : Elsewhere s p n ⟨fmt, 5⟩ [37, 104, 104, 88, 0]) :
    FormatApart s.mem p n fmt (hexItems c) := by
  intro m' hm
  have e : formatText (hexItems c) ++ [0] = [37, 104, 104, 88, 0] := rfl
  have hc := c.toNat_lt
  refine ⟨?_, by change 4 < 2 ^ 64; decide, ⟨by simp [Value.HasLetter], by simp, by simp, ?_⟩, trivial⟩
  · rw [e]
    have ha := h.apart
    simp only [List.length_cons, List.length_nil, reduceCtorEq, false_or] at ha
    have hh := h.holds
    intro i hi
    have h1 := hh i hi
    simp only [List.length_cons, List.length_nil] at hi
    rw [← h1]
    simp only [rd] at h1 ⊢
    split
    · rfl
    · rename_i hpos
      simp only [if_neg hpos] at h1
      split
      · rfl
      · rename_i hlit
        simp only [if_neg hlit] at h1
        exact hm _ (by simp only [InRange]; omega) (by rw [h1]; rfl)
  · simp only [LenMod.bytes, Conv.digitCount]
    refine ⟨?_, by decide, by decide⟩
    show c.toNat < 2 ^ 32
    omega

theorem pop_first_view {m : Mem} {v : View} {c : Byte} {l : List Byte} (hv : ViewOf m v (c :: l)) :
    ∃ z, strview_pop_first_char m (some v) = .ok (c, some z) ∧ ViewOf m z l ∧ z.data = v.data + 1 := by
  have hsz := hv.size
  obtain ⟨a, b, e, -, hb, ⟨-, h2, h3⟩ | ⟨h, -⟩⟩ := C14_split_index hv 1 (by decide) (by decide)
  swap
  · omega
  have ha : a.length = 1 := by simp only [List.length_cons] at h2; omega
  obtain ⟨rfl, rfl⟩ := List.append_inj (s₁ := [c]) (t₁ := l) e (by rw [ha]; rfl)
  obtain ⟨x, z, hs, hp, -⟩ := C82_pop_is_split hv
  rw [h3] at hs
  cases hs
  exact ⟨_, hp, hb, rfl⟩

/-- C78. Writing the bytes of a view with `strbuf_append_prnf(&buf, "%hhX", c)`: the buffer gets two hexadecimal digits for each. -/
theorem C78_write_hex {cfg : Cfg} (hcfg : cfg.Ok) {fmt : Addr} (l : List Byte) :
    ∀ {s : St} (_ : s.Sane) {p : Addr} {b : Buf} (_ : BufAt s p b) {v : View} (_ : 0 < v.data) (_ : Elsewhere s p (storage b.cap) v l)
      (_ : Elsewhere s p (storage b.cap) ⟨fmt, 5⟩ [37, 104, 104, 88, 0]) (_ : b.HasRoom cfg (b.data.length + (hexText l).length))
      (k : Nat) (_ : l.length < k),
    (b.Dynamic ∧ writeHex cfg fmt k v p s = .env .alloc) ∨
    ∃ p' s' cap, writeHex cfg fmt k v p s = .ok (p', s') ∧ BufAt s' p' ⟨b.data ++ hexText l, cap, b.al⟩ ∧ s'.Sane ∧
      OnlyBlock s s' p (storage b.cap) p' (storage cap) := by
  induction l with
  | nil =>
    intro s hs p b hb v hvp hv _ _ k hk
    obtain ⟨k, rfl⟩ := Nat.exists_eq_succ_of_ne_zero (by omega : k ≠ 0)
    have hz : v.size = 0 := hv.size
    exact .inr ⟨p, s, b.cap, by simp only [writeHex, hz, if_true], by simpa [hexText] using hb, hs, .refl _ _ _⟩
  | cons c l ih =>
    intro s hs p b hb v hvp hv hfmt hroom k hk
    obtain ⟨k, rfl⟩ := Nat.exists_eq_succ_of_ne_zero (by omega : k ≠ 0)
    have hlt : hexText (c :: l) = [hexChar (c.toNat / 16), hexChar (c.toNat % 16)] ++ hexText l := by simp [hexText]
    have hout := hexItems_output c
    rw [hlt, List.length_append (bs := hexText l)] at hroom
    have hmax : ((b.data.length + (2 + (hexText l).length) : Nat) : Int) ≤ INT_MAX := by
      have h1 := hb.cap
      have h2 := hcfg.pos
      rcases hroom with h | ⟨_, h⟩ <;> simp only [List.length_cons, List.length_nil] at h <;> omega
    have hsz : v.size ≠ 0 := by have := hv.size; simp only [List.length_cons] at this; omega
    obtain ⟨z, hpop, hz, hzd⟩ := pop_first_view ⟨hv.toDenotes, hvp⟩
    have hap := hv.apart
    simp only [List.length_cons, reduceCtorEq, false_or] at hap
    have hzE : Elsewhere s p (storage b.cap) z l := ⟨hz.toDenotes, .inr (by rw [hzd]; omega)⟩
    obtain ⟨hf, hh⟩ := hroom.fits hcfg (k := b.data.length + (formatOutput (hexItems c)).length) (by rw [hout]; omega)
    obtain ⟨cap, hc, hy⟩ := C68_append_prnf hcfg hs hb [] (hexItems_apart hfmt) (by rw [hout]; show (2 : Int) ≤ INT_MAX; decide) hh
    have hcap := hc hf
    subst hcap
    rw [if_pos hf, hout] at hy
    have ec : writeHex cfg fmt (k + 1) v p s = (do
        match ← strbuf_append_vprnf cfg s (some p) fmt (formatArgs (hexItems c) ++ []) with
        | (_, some buf, s) => writeHex cfg fmt k z buf s
        | _ => .env .other) := by
      simp only [writeHex, if_neg hsz, hpop, Res.bind_ok]; rfl
    rw [ec]
    rcases hy with ⟨h1, h2⟩ | ⟨p1, s1, h1, h2⟩
    · exact .inl ⟨h1, by rw [h2]; rfl⟩
    · have hr1 := hroom.after hcfg (b.data ++ [hexChar (c.toNat / 16), hexChar (c.toNat % 16)])
        (b.data.length + [hexChar (c.toNat / 16), hexChar (c.toNat % 16)].length)
      rw [h1]
      simp only [Res.bind_ok]
      rcases ih h2.sane h2.buf hz.pos (hzE.after h2.only (storage_pos _) h2.buf.top) (hfmt.after h2.only (storage_pos _) h2.buf.top)
          (by rw [List.length_append (as := b.data)]; convert hr1 using 1; omega) k (by simp only [List.length_cons] at hk; omega) with
        h | ⟨p', s', cap, i1, i2, i3, i4⟩
      · exact .inl h
      · exact .inr ⟨p', s', cap, i1, by rw [hlt]; simpa using i2, i3, h2.only.trans i4⟩

theorem hexChar_table : ∀ d : Fin 16, digitVal (hexChar d) = some d.val ∧ hexChar d ≠ 32 ∧ hexChar d ≠ 120 ∧ hexChar d ≠ 88 := by
  decide +kernel

/-- C78. Reading such a text with `strview_split_index` and `strnum_value` gives the bytes, each without error. -/
theorem C78_read_hex {m : Mem} (l : List Byte) :
    ∀ {v : View} (_ : ViewOf m v (hexText l)) (k : Nat) (_ : l.length < k), readHex m k v = .ok (l.map fun c => (0, some c.toNat)) := by
  induction l with
  | nil =>
    intro v hv k hk
    obtain ⟨k, rfl⟩ := Nat.exists_eq_succ_of_ne_zero (by omega : k ≠ 0)
    have hz : v.size = 0 := hv.size
    simp only [readHex, hz, if_true]; rfl
  | cons c l ih =>
    intro v hv k hk
    obtain ⟨k, rfl⟩ := Nat.exists_eq_succ_of_ne_zero (by omega : k ≠ 0)
    have hlt : hexText (c :: l) = [hexChar (c.toNat / 16), hexChar (c.toNat % 16)] ++ hexText l := by simp [hexText]
    rw [hlt] at hv
    have hsz : v.size ≠ 0 := by have := hv.size; simp only [List.length_append, List.length_cons] at this; omega
    obtain ⟨a, b, e, ha, hb, ⟨-, h2, h3⟩ | ⟨h, -⟩⟩ := C14_split_index hv 2 (by decide) (by decide)
    swap
    · omega
    have hal : a.length = 2 := by simp only [List.length_append, List.length_cons, List.length_nil] at h2; omega
    obtain ⟨rfl, rfl⟩ := List.append_inj e (by rw [hal]; rfl)
    have hc := c.toNat_lt
    obtain ⟨d1, n1, n2, n3⟩ := hexChar_table ⟨c.toNat / 16, by omega⟩
    obtain ⟨d2, -, n5, n6⟩ := hexChar_table ⟨c.toNat % 16, by omega⟩
    simp only at d1 d2 n1 n2 n3 n5 n6
    have hnum : Numeral 16 [hexChar (c.toNat / 16), hexChar (c.toNat % 16)] c.toNat := by
      have := Numeral.snoc (Numeral.snoc (Numeral.nil (base := 16)) d1 (by omega)) d2 (by omega)
      have e : (0 * 16 + c.toNat / 16) * 16 + c.toNat % 16 = c.toNat := by omega
      rwa [e] at this
    have hval := C22_unsigned_partial .uchar (some 0) ha (o := STRNUM_BASE_HEX) (base := 16) (n := c.toNat) (rest := [])
      (ds := [hexChar (c.toNat / 16), hexChar (c.toNat % 16)])
      ⟨_, _, afterSpaces_self n1, AfterPrefix.none (.inr ⟨.inl (by decide), .inr fun r => by
        rintro (h | h)
        · simp only [List.cons.injEq] at h; exact n5 h.2.1
        · simp only [List.cons.injEq] at h; exact n6 h.2.1⟩), ⟨by simp, hnum, by simp⟩⟩ (fun e => by cases e)
    simp only [unsignedOutcome, reduceCtorEq, if_false, if_neg (show ¬ UTy.max .uchar < c.toNat by simp only [UTy.max]; omega)] at hval
    simp only [readHex, if_neg hsz, h3, Res.bind_ok, hval, ih hb k (by simp only [List.length_cons] at hk; omega), List.map_cons, Option.map]

/-- C78. Bytes written as hexadecimal text into a buffer and read back from it are the same bytes: whatever the bytes are. -/
theorem C78_hex_round_trip {cfg : Cfg} (hcfg : cfg.Ok) {fmt : Addr} (l : List Byte) {s : St} (hs : s.Sane) {p : Addr} {cap : Nat} {al : Alloc}
    (hb : BufAt s p ⟨[], cap, al⟩) {v : View} (hvp : 0 < v.data) (hv : Elsewhere s p (storage cap) v l)
    (hfmt : Elsewhere s p (storage cap) ⟨fmt, 5⟩ [37, 104, 104, 88, 0]) (hroom : Buf.HasRoom ⟨[], cap, al⟩ cfg (2 * l.length)) (k : Nat)
    (hk : l.length < k) :
    (al.fn ≠ 0 ∧ writeHex cfg fmt k v p s = .env .alloc) ∨
    ∃ p' s' u, writeHex cfg fmt k v p s = .ok (p', s') ∧ strbuf_view s'.mem (some p') = .ok u ∧ u.size = 2 * l.length ∧
      readHex s'.mem k u = .ok (l.map fun c => (0, some c.toNat)) := by
  have hl : (hexText l).length = 2 * l.length := by simp [hexText, Nat.mul_comm]
  rcases C78_write_hex hcfg l hs hb hvp hv hfmt (by simpa [hl] using hroom) k hk with h | ⟨p', s', cap', h1, h2, h3, h4⟩
  · exact .inl h
  · simp only [List.nil_append] at h2
    exact .inr ⟨p', s', ⟨p' + 24, (hexText l).length⟩, h1, by simp only [strbuf_view, deref_some h2.pos, h2.view], by simp only [hl]; omega,
      C78_read_hex l h2.viewOf k hk⟩

-- the bytes 0, 0xB1 and `a`, through a buffer that has to grow
example : replacedIn (writeHex isoCfg (exQ + 3) 4 ⟨exQ, 3⟩ exP (exSt exEmpty [0, 177, 97, 37, 104, 104, 88, 0])) =
    .ok [48, 48, 66, 49, 54, 49] ∧ hexText [0, 177, 97] = [48, 48, 66, 49, 54, 49] := by decide +kernel

example : Elsewhere (exSt exEmpty [0, 177, 97, 37, 104, 104, 88, 0]) exP (storage exEmpty.cap) ⟨exQ + 0, 3⟩ [0, 177, 97] ∧
    Elsewhere (exSt exEmpty [0, 177, 97, 37, 104, 104, 88, 0]) exP (storage exEmpty.cap) ⟨exQ + 3, 5⟩ [37, 104, 104, 88, 0] ∧
    exEmpty.HasRoom isoCfg (2 * 3) :=
  ⟨exSt_elsewhere exEmpty_valid (by decide) 0 3 (by decide), exSt_elsewhere exEmpty_valid (by decide) 3 5 (by decide), .inr ⟨by decide, by decide⟩⟩

end CStr
