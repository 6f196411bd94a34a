import Verif.Spec.Filter
import Verif.Lemmas.Observe
import Verif.Props.Pack
import Verif.Props.Crypt
/-! Helper lemmas for C88: packing, unpacking, encryption and decryption among the actions of a program. -/
namespace CStr

variable {cfg : Cfg} {dflt : Alloc} {K : Nat → List Byte} {ka : Nat → Addr}

/-! ### Packed integers -/

theorem pattern_value (t : IntTy) {n : Nat} (h : n < 256 ^ t.width) : t.pattern (t.value n) = n ∧ t.InRange (t.value n) := by
  cases t <;> simp only [IntTy.InRange, IntTy.value, IntTy.pattern, IntTy.width, IntTy.signed] at h ⊢ <;>
    (try simp only [Bool.false_eq_true, false_and, if_false, true_and]) <;> (try split) <;> omega

/-- Every byte string of the right length is a packed integer. -/
theorem exists_wire (o : Order) (t : IntTy) {l : List Byte} (h : l.length = t.width) : ∃ x, t.InRange x ∧ l = wire o t x := by
  cases o with
  | LE =>
    obtain ⟨h1, h2⟩ := pattern_value t (ofRepr_lt .little h)
    refine ⟨_, h2, ?_⟩
    rw [wire, ← pattern_bytes, h1]
    exact (repr_ofRepr' .little h).symm
  | BE =>
    obtain ⟨h1, h2⟩ := pattern_value t (ofRepr_lt .big h)
    refine ⟨_, h2, ?_⟩
    rw [wire, ← pattern_bytes, h1]
    exact (repr_ofRepr' .big h).symm

/-- And of only one. -/
theorem wire_inj {o : Order} {t : IntTy} {x y : Int} (hx : t.InRange x) (hy : t.InRange y) (h : wire o t x = wire o t y) : x = y := by
  have := conv_wire .little o t x
  rw [h, conv_wire] at this
  rw [← value_pattern t hx, ← this, value_pattern t hy]

/-! ### Encryption -/

/-- Different texts have different encryptions. -/
theorem cbc_inj {k iv p p' c : List Byte} (hk : k.length = 32) (hiv : iv.length = 16) (h : Aes256Cbc k iv p c) (h' : Aes256Cbc k iv p' c) : p = p' := by
  obtain ⟨K, E, D, -, -, -, -, hDE, -, hfips⟩ := cipher_for .little hk
  obtain ⟨ivb, rfl⟩ := exists_block hiv
  obtain ⟨bs, rfl, e⟩ := cbc_blocks (R := Fips.Encrypts 8 k) (hfips rfl) (fun h h' => C57_encrypts_unique (.inr (.inr rfl)) h h') ivb h
  obtain ⟨bs', rfl, e'⟩ := cbc_blocks (R := Fips.Encrypts 8 k) (hfips rfl) (fun h h' => C57_encrypts_unique (.inr (.inr rfl)) h h') ivb h'
  have := flat_inj (e.symm.trans e')
  rw [← cbcDec_cbcEnc hDE ivb bs, this, cbcDec_cbcEnc hDE]

theorem CbcEncrypts.length {R : List Byte → List Byte → Prop} (hR : ∀ x y, R x y → x.length = 16 → y.length = 16) {iv p c : List Byte} (h : CbcEncrypts R iv p c)
    (hiv : iv.length = 16) : c.length = p.length := by
  induction h with
  | nil => rfl
  | cons hl hE _ ih =>
    have hx := hR _ _ hE (by simp only [xorBytes, List.length_zipWith]; omega)
    rw [List.length_append, List.length_append, ih hx, hx, hl]

theorem cbc_length {k iv p c : List Byte} (hk : k.length = 32) (hiv : iv.length = 16) (h : Aes256Cbc k iv p c) : c.length = p.length ∧ ∃ n, p.length = 16 * n := by
  obtain ⟨K, E, D, -, -, -, -, hDE, -, hfips⟩ := cipher_for .little hk
  obtain ⟨ivb, rfl⟩ := exists_block hiv
  refine ⟨?_, h.whole⟩
  obtain ⟨bs, rfl, rfl⟩ := cbc_blocks (R := Fips.Encrypts 8 k) (hfips rfl) (fun h h' => C57_encrypts_unique (.inr (.inr rfl)) h h') ivb h
  rw [flat_length, flat_length, cbcEnc_length]

/-- What decryption makes of a text is determined by it. -/
theorem Deciphers.unique {k iv d out out' : List Byte} (h : Deciphers k iv d out) (h' : Deciphers k iv d out') : out = out' := by
  obtain ⟨hk, hiv, c, r, p, x, rfl, hr, hc, -, rfl⟩ := h
  obtain ⟨-, -, c', r', p', x', e, hr', hc', -, rfl⟩ := h'
  obtain ⟨l1, n, l2⟩ := cbc_length hk hiv hc
  obtain ⟨l1', n', l2'⟩ := cbc_length hk hiv hc'
  have hl := congrArg List.length e
  simp only [List.length_append] at hl
  obtain ⟨rfl, rfl⟩ := List.append_inj e (by omega)
  have hp := cbc_inj hk hiv hc hc'
  obtain ⟨rfl, hx⟩ := List.append_inj' hp rfl
  cases hx
  rfl

/-- It undoes encryption. -/
theorem deciphers_of_cbc {k iv plain c : List Byte} (hk : k.length = 32) (hiv : iv.length = 16) (h : Aes256Cbc k iv (pkcs7 plain) c) : Deciphers k iv c plain := by
  obtain ⟨X, hX⟩ := padded_last plain
  obtain ⟨h1, -⟩ := cbc_length hk hiv h
  have h2 := padByte plain
  have h3 := paddedLen_eq plain
  have h4 : (pkcs7 plain).length = plain.length + (16 - plain.length % 16) := by simp [pkcs7]
  refine ⟨hk, hiv, c, [], X, _, (List.append_nil _).symm, by decide, by rw [← hX]; exact h, by omega, ?_⟩
  rw [List.append_nil, ← hX, h1, h2, h4]
  rw [show plain.length + (16 - plain.length % 16) - (16 - plain.length % 16) = plain.length by omega]
  simp only [pkcs7]
  exact (List.take_left).symm

/-! ### What the machine represents -/

/-- A memory area may be written to. -/
theorem Rep.scribble {σ : AState} {ρ : Vars} {s : St} (r : Rep K ka σ ρ s) {k n : Nat} (hk : σ k = some (.mem n)) {m1 : Mem}
    (h1 : ∀ a, ¬ InRange (ρ k) n a → m1 a = s.mem a) (h2 : ∀ a, (m1 a).isSome = (s.mem a).isSome) : Rep K ka σ ρ { s with mem := m1 } := by
  obtain ⟨o1, o2, o3, o4, o5⟩ := r.obj k _ hk
  have := (r.forget hk).fill (s' := { s with mem := m1 }) (o := .mem n) (p' := ρ k) (k := k) (r.sane.withMem (fun a ha => by rw [h2]; exact ha))
    ⟨fun a ha _ => h1 a ha, fun a h1 h2 => absurd h1 h2, fun a h1 h2 => absurd h1 h2, fun _ _ _ => rfl, fun h => absurd rfl h, fun h => absurd rfl h, rfl⟩
    (fun h0 => by simp only [Obj.size] at h0; omega) ⟨o1, o2, o3, o4, fun i hi => by simp only [h2]; exact o5 i hi⟩
    (fun h0 => r.notLive hk h0 (by simp only [InRange, Obj.size]; omega)) (AState.set_same _ _ _)
  rw [AState.set_set, Vars.set_set] at this
  rwa [AState.set_self hk, Vars.set_self rfl] at this

theorem MRep.scribble {A : Mixed} {X : MState} (r : MRep K ka A X) {k n : Nat} (hk : A.σ k = some (.mem n)) {m1 : Mem}
    (h1 : ∀ a, ¬ InRange (X.ρ k) n a → m1 a = X.s.mem a) (h2 : ∀ a, (m1 a).isSome = (X.s.mem a).isSome) : MRep K ka A { X with s := { X.s with mem := m1 } } :=
  ⟨r.rep.scribble hk h1 h2, r.number, r.views, r.eol, r.eolOk⟩

/-- A buffer has been changed. -/
theorem Rep.changed {σ : AState} {ρ : Vars} {s s' : St} (r : Rep K ka σ ρ s) {h : Nat} {b : Buf} (hh : σ h = some (.buf b)) {l : List Byte} {cap : Nat} {p' : Addr}
    (hc : Changed s (ρ h) b l cap p' s') : Rep K ka (σ.set h (some (.buf ⟨l, cap, b.al⟩))) (ρ.set h p') s' := by
  have hf := (r.forget hh).fill (o := .buf ⟨l, cap, b.al⟩) (k := h) hc.sane hc.only
    (fun h0 => by simp only [Obj.size, storage] at h0; omega) hc.buf ?_ (AState.set_same _ _ _)
  · rwa [AState.set_set, Vars.set_set] at hf
  · intro h0
    have h0' : b.al.fn = 0 := h0
    have hd : ¬ b.Dynamic := by simp only [Buf.Dynamic]; omega
    obtain ⟨f1, _, f3, _⟩ := hc.fixed hd
    rw [f1, f3]
    exact r.notLive hh h0' (by simp only [InRange, Obj.size, storage]; omega)

theorem moved_view (A : Mixed) (h : Nat) (b : Buf) (i : Nat) : (A.moved h b).view i = (A.view i).lost h := by
  simp only [Mixed.view, Mixed.moved, List.getD_eq_getElem?_getD, List.getElem?_map]
  cases A.views[i]? <;> rfl

theorem within_view (A : Mixed) (h : Nat) (b : Buf) (l : List Byte) (i : Nat) : (A.content h b l).view i = (A.view i).within h l.length := by
  simp only [Mixed.view, Mixed.content, List.getD_eq_getElem?_getD, List.getElem?_map]
  cases A.views[i]? <;> rfl

/-- A view of another buffer. -/
theorem ViewRep.other {σ : AState} {ρ : Vars} {k h i n : Nat} {v : View} (hv : ViewRep K ka σ ρ (.part (.buf k) i n) v) (hk : k ≠ h) (o : Option Obj) (p : Addr) :
    ViewRep K ka (σ.set h o) (ρ.set h p) (.part (.buf k) i n) v := by
  obtain ⟨g1, g2, g3⟩ := hv
  have e : σ.set h o k = σ k := AState.set_ne _ _ hk
  refine ⟨?_, ?_, ?_⟩
  · obtain ⟨b', hb'⟩ := g1; exact ⟨b', by rw [e]; exact hb'⟩
  · simp only [Ref.text, AState.data, e] at g2 ⊢; exact g2
  · simp only [Ref.addr, Vars.set_ne _ _ hk] at g3 ⊢; exact g3

theorem MRep.moved {A : Mixed} {X : MState} (r : MRep K ka A X) {h : Nat} {b : Buf} (hh : A.σ h = some (.buf b)) {l : List Byte} {cap : Nat} {p' : Addr} {s' : St}
    (hc : Changed X.s (X.ρ h) b l cap p' s') : MRep K ka (A.moved h ⟨l, cap, b.al⟩) { X with ρ := X.ρ.set h p', s := s' } := by
  refine ⟨r.rep.changed hh hc, by simp only [Mixed.moved, List.length_map]; exact r.number, fun i => ?_, r.eol, r.eolOk⟩
  rw [moved_view]
  have hv := r.views i
  cases hA : A.view i with
  | null => rw [hA] at hv; exact hv
  | stale => trivial
  | part t a n =>
    rw [hA] at hv
    cases t with
    | const k => exact hv
    | buf k =>
      simp only [AView.lost]
      split
      · trivial
      · next hk => exact hv.other hk _ _

theorem MRep.stays {A : Mixed} {X : MState} (r : MRep K ka A X) {h : Nat} {b : Buf} (hh : A.σ h = some (.buf b)) {l : List Byte} {s' : St}
    (hc : Changed X.s (X.ρ h) b l b.cap (X.ρ h) s') : MRep K ka (A.content h b l) { X with s := s' } := by
  have hrep := r.rep.changed hh hc
  rw [Vars.set_self rfl] at hrep
  refine ⟨hrep, by simp only [Mixed.content, List.length_map]; exact r.number, fun i => ?_, r.eol, r.eolOk⟩
  rw [within_view]
  have hv := r.views i
  cases hA : A.view i with
  | null => rw [hA] at hv; exact hv
  | stale => trivial
  | part t a n =>
    rw [hA] at hv
    cases t with
    | const k => exact hv
    | buf k =>
      simp only [AView.within]
      split
      · trivial
      · next hk =>
        by_cases e : k = h
        · subst e
          obtain ⟨g1, g2, g3⟩ := hv
          refine ⟨⟨_, AState.set_same _ _ _⟩, ?_, g3⟩
          have : ¬ l.length < a + n := fun h => hk ⟨rfl, h⟩
          simp only [Ref.text, AState.data, Mixed.content, AState.set_same]
          omega
        · have := hv.other (h := h) e (some (.buf { b with data := l })) (X.ρ h)
          rwa [Vars.set_self rfl] at this

/-! ### The actions -/

theorem Rep.area {σ : AState} {ρ : Vars} {s : St} (r : Rep K ka σ ρ s) {k n : Nat} (hk : σ.Area k n) : Variable s.mem (ρ k) n := by
  obtain ⟨m, h1, h2⟩ := hk
  obtain ⟨o1, o2, o3, o4, o5⟩ := r.obj k _ h1
  exact ⟨o1, by omega, fun i hi => o5 i (by omega)⟩

theorem Rep.areaApart {σ : AState} {ρ : Vars} {s : St} (r : Rep K ka σ ρ s) {k n h : Nat} {b : Buf} (hk : σ.Area k n) (hh : σ h = some (.buf b)) :
    ρ k + n ≤ ρ h ∨ ρ h + storage b.cap ≤ ρ k := by
  obtain ⟨m, h1, h2⟩ := hk
  have hne : k ≠ h := by intro e; subst e; rw [h1] at hh; cases hh
  have := r.apart k h _ _ h1 hh hne
  simp only [Apart, Obj.size] at this
  omega

/-- `STRBUF_PACK`. -/
theorem pack_ok (hcfg : cfg.Ok) {A : Mixed} {X : MState} (r : MRep K ka A X) {h k : Nat} {o : Order} {t : IntTy} (x : Int) (hk : A.σ.Area k t.width) {b : Buf}
    (hh : A.σ h = some (.buf b)) (hH : cfg.Handles b (b.data.length + t.width)) :
    STRBUF_PACK cfg .little o t X.s (X.ρ k) (some (X.ρ h)) x = .env .alloc ∨
      ∃ v p' s', STRBUF_PACK cfg .little o t X.s (X.ρ k) (some (X.ρ h)) x = .ok (v, some p', s') ∧
        MRep K ka (if (Edit.insert b.data.length (wire o t x)).InPlace cfg b then A.content h b ((Edit.insert b.data.length (wire o t x)).content b)
          else A.moved h ((Edit.insert b.data.length (wire o t x)).apply cfg b)) { X with ρ := X.ρ.set h p', s := s' } := by
  have hb : BufAt X.s (X.ρ h) b := r.rep.obj h _ hh
  have hlen := hb.sizeMax
  obtain ⟨s1, rfl, g1, g2, g3, e⟩ := pack_eq (cfg := cfg) r.rep.sane hb (r.rep.area hk) (r.rep.areaApart hk hh) .little o t (Nat.le_refl _) x
  obtain ⟨m, hm, hm'⟩ := hk
  have hw : Writable X.s.mem (X.ρ k) (wire o t x).length := (r.rep.area ⟨m, hm, hm'⟩).writable (by rw [wire_length]; exact Nat.le_refl _)
  have r1 := r.scribble hm (m1 := put X.s.mem (X.ρ k) (wire o t x)) (fun a ha => put_outside (by rw [wire_length]; simp only [InRange] at ha; omega))
    (fun a => put_isSome _ _ _ _ hw)
  have hwant : ((Edit.insert b.data.length (wire o t x)).wanted b).length = b.data.length + t.width := by
    simp only [Edit.wanted, List.length_append, List.length_take, List.length_drop, wire_length]; omega
  rcases run_does_at hcfg g1 g2 (.append g3) (e := .insert b.data.length (wire o t x)) ⟨by rw [hwant]; exact hH, by simp only [INT_MIN]; omega, by omega⟩ with
    ⟨_, _, e'⟩ | ⟨p', s', e', hal, hch, hp, -⟩
  · left; rw [e]; exact e'
  · right
    refine ⟨_, p', s', by rw [e]; exact e', ?_⟩
    split
    · next hin =>
      have hpp := hp hin
      simp only [Edit.apply] at hch
      rw [hpp, show (Edit.insert (b.data.length : Int) (wire o t x)).cap cfg b = b.cap from hin] at hch
      have := r1.stays hh hch
      rw [hpp, Vars.set_self rfl]
      exact this
    · have := r1.moved hh hch
      exact this

/-- `STRVIEW_UNPACK`. -/
theorem unpack_ok {A : Mixed} {X : MState} (r : MRep K ka A X) {i k : Nat} (o : Order) {t : IntTy} (hk : A.σ.Area k t.width) (hf : A.Fresh i) (hl : t.width ≤ (A.text K i).length) :
    ∃ x rest m v, t.InRange x ∧ A.text K i = wire o t x ++ rest ∧ STRVIEW_UNPACK .little o t X.s.mem (X.ρ k) (viewAt X.views i) = .ok (x, m, v) ∧
      MRep K ka (A.shorten i (if rest = [] then none else some (t.width, rest.length))) { X with views := X.views.set i v, s := { X.s with mem := m } } := by
  obtain ⟨x, hx, e⟩ := exists_wire o t (l := (A.text K i).take t.width) (by rw [List.length_take]; omega)
  have ht : A.text K i = wire o t x ++ (A.text K i).drop t.width := by rw [← e, List.take_append_drop]
  have hw0 := width_pos t
  generalize hrest : (A.text K i).drop t.width = rest at ht
  rcases r.held hf with ⟨-, -, i3⟩ | ⟨u, a, n, i1, i2, i3, i4, i5, i6⟩
  · rw [i3] at hl; simp only [List.length_nil] at hl; omega
  have hn : n = t.width + rest.length := by rw [← i6, ht, List.length_append, wire_length]
  have hv := r.rep.area hk
  have hap : X.ρ k + t.width ≤ (viewAt X.views i).data ∨ (viewAt X.views i).data + (t.width + rest.length : Nat) ≤ X.ρ k := by
    rw [i4]
    simp only [← hn]
    cases u with
    | buf h =>
      obtain ⟨b, hh⟩ := i2
      have := r.rep.areaApart hk hh
      have hb : BufAt X.s (X.ρ h) b := r.rep.obj h _ hh
      have h2 := hb.len
      simp only [Ref.text, AState.data, hh] at i3
      simp only [Ref.addr, storage] at this ⊢
      omega
    | const c =>
      obtain ⟨m, h1, h2⟩ := hk
      have := r.rep.constApart c k _ h1
      simp only [Ref.text] at i3
      simp only [Apart, Obj.size, Ref.addr] at this ⊢
      omega
  have hvw : ViewOf X.s.mem (viewAt X.views i) (wire o t x ++ rest) := by rw [← ht]; exact i5
  obtain ⟨m', v', e1, e2, e3, e4, e5⟩ := C54_unpack .little o t hx hvw hv hap
  have some' : ∀ a, (m' a).isSome = (X.s.mem a).isSome := by
    intro y
    by_cases hy : InRange (X.ρ k) t.width y
    · simp only [InRange] at hy
      obtain ⟨j, hj⟩ : ∃ j : Nat, y = X.ρ k + j := ⟨(y - X.ρ k).toNat, by omega⟩
      subst hj
      rw [hv.2.2 j (by omega)]
      have hh := e2 j (by rw [repr_length]; omega)
      have h3 := hv.1
      have h4 := hv.2.1
      rw [rd_mid (by omega) (by omega)] at hh
      rw [hh]
      rfl
    · rw [e3 y hy]
  obtain ⟨m, hm, hm'⟩ := hk
  have r1 := r.scribble hm (m1 := m') (fun y hy => e3 y (by simp only [InRange] at hy ⊢; omega)) some'
  refine ⟨x, rest, m', v', hx, ht, e1, ?_⟩
  refine r1.shorten hf ?_
  split
  · next h0 => rw [e4 h0]; exact CutIs.none
  · next h0 =>
    rw [(e5 h0).1]
    exact CutIs.part (by rw [ht, List.length_append, wire_length]; omega)

/-- The arguments of encryption and decryption. -/
theorem Rep.cryptArgs {σ : AState} {ρ : Vars} {s : St} (r : Rep K ka σ ρ s) {h key iv k : Nat} {b : Buf} (hc : σ.Crypt h key iv k b) :
    CryptArgs s (ρ h) b (cstrOf (ρ key)) (cstrOf (ρ iv)) (ρ k) ((σ.data key).take 32) ((σ.data iv).take 16) := by
  obtain ⟨hh, -, hk1, hi1, ⟨bk, hk2, hk3⟩, ⟨bi, hi2, hi3⟩, ha⟩ := hc
  have hK : BufAt s (ρ key) bk := r.obj key _ hk2
  have hI : BufAt s (ρ iv) bi := r.obj iv _ hi2
  have a1 := r.apart key h _ _ hk2 hh hk1
  have a2 := r.apart iv h _ _ hi2 hh hi1
  have l1 := hK.len
  have l2 := hI.len
  have t1 := hK.top
  have t2 := hI.top
  simp only [Apart, Obj.size, storage] at a1 a2 t1 t2
  have e1 : σ.data key = bk.data := by simp only [AState.data, hk2]
  have e2 : σ.data iv = bi.data := by simp only [AState.data, hi2]
  refine ⟨?_, ?_, ?_, ?_, ?_, ?_, ?_, ?_, ?_⟩
  · rw [e1]; exact hK.viewOf.holds.take 32
  · rw [e1, List.length_take]; omega
  · simp only [cstrOf, hdrLen]; omega
  · simp only [cstrOf, hdrLen, storage]; omega
  · rw [e2]; exact hI.viewOf.holds.take 16
  · rw [e2, List.length_take]; omega
  · simp only [cstrOf, hdrLen]; omega
  · simp only [cstrOf, hdrLen, storage]; omega
  · intro hd
    have b1 := r.areaApart (ha hd) hh
    have b2 := r.areaApart (ha hd) hk2
    have b3 := r.areaApart (ha hd) hi2
    refine ⟨r.area (ha hd), b1, ?_, ?_⟩
    · simp only [cstrOf, hdrLen, storage] at b2 ⊢; omega
    · simp only [cstrOf, hdrLen, storage] at b3 ⊢; omega

/-- After encryption or decryption. -/
theorem MRep.crypted {A : Mixed} {X : MState} (r : MRep K ka A X) {h key iv k : Nat} {b : Buf} (hc : A.σ.Crypt h key iv k b) {res : BufRes} {out : List Byte} {p' : Addr} {s' : St}
    (hr : Crypted X.s (X.ρ h) b (X.ρ k) res (paddedLen b.data.length) out p' s') :
    res = .ok (.invalid, some p', s') ∧ MRep K ka (A.crypted h b out) { X with ρ := X.ρ.set h p', s := s' } := by
  obtain ⟨e, hr⟩ := hr
  refine ⟨e, ?_⟩
  rw [Mixed.crypted]
  split at hr
  · next hd => rw [if_pos hd]; exact r.moved hc.1 hr.1
  · next hd =>
    rw [if_neg hd]
    obtain ⟨m1, h1, h2, h3⟩ := hr
    obtain ⟨m, hm, hm'⟩ := hc.2.2.2.2.2.2 hd
    have r1 := r.scribble hm (m1 := m1) (fun a ha => h1 a (by simp only [InRange] at ha ⊢; omega)) h2
    have hp := (h3.fixed hd).1
    rw [hp] at h3 ⊢
    have := r1.stays hc.1 h3
    rw [Vars.set_self rfl]
    exact this

end CStr
