import Verif.Spec.Filter
import Verif.Lemmas.Observe
import Verif.Props.Io
import Verif.Lemmas.Accessory
/-! Helper lemmas for C87: input and output among the actions of a program. -/
namespace CStr

variable {cfg : Cfg} {dflt : Alloc} {K : Nat → List Byte} {ka : Nat → Addr}

theorem AState.set_id {σ : AState} {h : Nat} {o : Option Obj} (e : σ h = o) : σ.set h o = σ := by
  funext k
  by_cases hk : k = h
  · subst hk; rw [AState.set_same, e]
  · exact AState.set_ne _ _ hk

theorem Vars.set_id (ρ : Vars) (h : Nat) : ρ.set h (ρ h) = ρ := by
  funext k
  by_cases hk : k = h
  · subst hk; exact Vars.set_same _ _ _
  · exact Vars.set_ne _ _ hk

/-- The content of a buffer has been changed where it is. -/
theorem Rep.inPlace {σ : AState} {ρ : Vars} {s s' : St} (r : Rep K ka σ ρ s) {h : Nat} {b : Buf} (hh : σ h = some (.buf b)) {l : List Byte}
    (hr : Result s (ρ h) b l b.cap (ρ h) s') : Rep K ka (σ.set h (some (.buf { b with data := l }))) ρ s' := by
  have hst : 0 < storage b.cap := by simp only [storage]; omega
  obtain ⟨-, hlive, -, -⟩ := hr.same rfl
  have := (r.forget hh).fill (o := .buf { b with data := l }) (p' := ρ h) (k := h) hr.sane hr.only (fun h0 => by simp only [Obj.size] at h0; omega) hr.buf
    (fun h0 => by rw [hlive]; exact r.notLive hh h0 (by simp only [InRange, Obj.size]; omega)) (AState.set_same _ _ _)
  have e1 : (σ.set h none).set h (some (.buf { b with data := l })) = σ.set h (some (.buf { b with data := l })) := by
    funext k; simp only [AState.set]; split <;> rfl
  have e2 : (ρ.set h 0).set h (ρ h) = ρ := by
    funext k; simp only [Vars.set]; split
    · rename_i e; rw [e]
    · rfl
  rwa [e1, e2] at this

theorem content_view (A : Mixed) (h : Nat) (b : Buf) (l : List Byte) (i : Nat) : (A.content h b l).view i = (A.view i).within h l.length := by
  simp only [Mixed.view, Mixed.content, List.getD_eq_getElem?_getD, List.getElem?_map]
  cases A.views[i]? <;> rfl

theorem MRep.content {A : Mixed} {X : MState} (r : MRep K ka A X) {h : Nat} {b : Buf} (hh : A.σ h = some (.buf b)) {l : List Byte} {s' : St}
    (hr : Result X.s (X.ρ h) b l b.cap (X.ρ h) s') : MRep K ka (A.content h b l) { X with s := s' } := by
  refine ⟨r.rep.inPlace hh hr, by simp only [Mixed.content, List.length_map]; exact r.number, fun i => ?_, r.eol, r.eolOk⟩
  rw [content_view]
  have hv := r.views i
  cases hA : A.view i with
  | null => rw [hA] at hv; exact hv
  | stale => trivial
  | part t a n =>
    rw [hA] at hv
    obtain ⟨g1, g2, g3⟩ := hv
    cases t with
    | const k => exact ⟨trivial, g2, g3⟩
    | buf k =>
      simp only [AView.within]
      split
      · trivial
      · next hk =>
        by_cases e : k = h
        · subst e
          refine ⟨⟨_, AState.set_same _ _ _⟩, ?_, g3⟩
          have : ¬ l.length < a + n := fun h => hk ⟨rfl, h⟩
          simp only [Ref.text, AState.data, Mixed.content, AState.set_same]
          omega
        · have e' : (A.content h b l).σ k = A.σ k := AState.set_ne _ _ e
          refine ⟨?_, ?_, g3⟩
          · obtain ⟨b', hb'⟩ := g1; exact ⟨b', by rw [e']; exact hb'⟩
          · have : (A.content h b l).σ.data k = A.σ.data k := by simp only [AState.data, e']
            simp only [Ref.text] at g2 ⊢
            rw [this]; exact g2

/-- One action. -/
theorem iact_ok (hcfg : cfg.Ok) {A : Mixed} {X : MState} (r : MRep K ka A X) (w : World) (d : Option Nat) {x : IAct} (hl : x.Legal cfg dflt K A) :
    x.exec cfg dflt K ka d X w = .env .alloc ∨
      ∃ a A' X' w', x.Step cfg dflt K d A w a A' w' ∧ x.exec cfg dflt K ka d X w = .ok (a, X', w') ∧ MRep K ka A' X' := by
  cases x with
  | act x =>
    rcases act_ok hcfg r hl with h | ⟨a, B, Y, h1, h2, h3⟩
    · left; simp only [IAct.exec, h, Res.bind_env]
    · exact .inr ⟨a, B, Y, w, ⟨h1, rfl⟩, by simp only [IAct.exec, h2, Res.bind_ok], h3⟩
  | read h =>
    right
    cases hh : A.σ h with
    | none =>
      refine ⟨.int 0, A, X, w, .inl ⟨hh, rfl, rfl, rfl⟩, ?_, r⟩
      rw [IAct.exec, r.rep.null h hh, (C55_null cfg X.s d w.inp w.out X.s.mem).2.1, Res.bind_ok]
    | some o =>
      obtain ⟨b, rfl⟩ := hl o hh
      have hb : BufAt X.s (X.ρ h) b := r.rep.obj h _ hh
      cases d with
      | none =>
        refine ⟨.int (-1), A, X, w, .inr ⟨b, hh, .inl ⟨rfl, rfl, rfl, rfl⟩⟩, ?_, r⟩
        rw [IAct.exec, C55_append_read_error hb, Res.bind_ok]
      | some j =>
        obtain ⟨l, rest, s', h1, h2, e, h3⟩ := C55_append_read (cfg := cfg) r.rep.sane hb j w.inp
        refine ⟨_, _, _, _, .inr ⟨b, hh, .inr ⟨j, l, rest, rfl, h1, h2, rfl, rfl, rfl⟩⟩, ?_, r.content hh h3⟩
        rw [IAct.exec, e, Res.bind_ok]
  | write h =>
    right
    cases hh : A.σ h with
    | none =>
      refine ⟨.int 0, A, X, w, .inl ⟨hh, rfl, rfl, rfl⟩, ?_, r⟩
      rw [IAct.exec, r.rep.null h hh, (C55_null cfg X.s d w.inp w.out X.s.mem).2.2.2.1, Res.bind_ok]
      have : X.ρ.setPtr h (some 0) = X.ρ := by
        have := Vars.set_id X.ρ h
        rwa [r.rep.null h hh] at this
      simp only [this]
    | some o =>
      obtain ⟨b, rfl⟩ := hl o hh
      have hb : BufAt X.s (X.ρ h) b := r.rep.obj h _ hh
      have hρ : X.ρ.setPtr h (some (X.ρ h)) = X.ρ := Vars.set_id _ _
      cases d with
      | none =>
        refine ⟨.int (-1), A, X, w, .inr ⟨b, hh, .inl ⟨rfl, rfl, rfl, rfl⟩⟩, ?_, r⟩
        rw [IAct.exec, C55_write_error hb, Res.bind_ok]
        simp only [hρ]
      | some j =>
        obtain ⟨l, rest, s', h1, h2, e, h3⟩ := C55_write hcfg r.rep.sane hb j w.out
        refine ⟨_, _, _, _, .inr ⟨b, hh, .inr ⟨j, l, rest, rfl, h1, h2, rfl, rfl, rfl⟩⟩, ?_, r.content hh h3⟩
        rw [IAct.exec, e, Res.bind_ok]
        simp only [hρ]
  | writeView i =>
    right
    rcases r.held hl with ⟨i1, i2, i3⟩ | ⟨t, a, n, i1, i2, i3, i4, i5, i6⟩
    · refine ⟨.int 0, A, X, w, .inl ⟨i1, rfl, rfl, rfl⟩, ?_, r⟩
      rw [IAct.exec, i2, (C55_null cfg X.s d w.inp w.out X.s.mem).2.2.2.2.2, Res.bind_ok]
      simp only
      rw [← i2, viewAt_set_self]
    · have hn : A.view i ≠ .null := by rw [i1]; intro h; cases h
      cases d with
      | none =>
        refine ⟨.int (-1), A, X, w, .inr ⟨hn, .inl ⟨rfl, rfl, rfl, rfl⟩⟩, ?_, r⟩
        rw [IAct.exec, C55_view_write_error i5, Res.bind_ok]
        simp only
        rw [viewAt_set_self]
      | some j =>
        obtain ⟨l, rest, v', h1, h2, e, -, h4, h5, h6⟩ := C55_view_write i5 j w.out
        have hlen := congrArg List.length h1
        rw [List.length_append] at hlen
        refine ⟨_, _, { X with views := X.views.set i v' }, _, .inr ⟨hn, .inr ⟨j, l, rest, rfl, h1, h2, rfl, rfl, rfl⟩⟩, ?_, r.shorten hl ?_⟩
        · rw [IAct.exec, e, Res.bind_ok]
        · by_cases hr : rest = []
          · by_cases hl0 : l = []
            · rw [if_neg (fun h => h.1 hl0), h6 (by rw [h1, hl0, hr]; rfl), hl0, hr]
              have h0 : A.text K i = [] := by rw [h1, hl0, hr]; rfl
              have := CutIs.whole i5.toDenotes
              rw [h0] at this ⊢
              exact this
            · rw [if_pos ⟨hl0, hr⟩, h5 (by rw [h1]; simp [hl0]) hr]
              exact CutIs.none
          · rw [if_neg (fun h => hr h.2), h4 hr]
            exact CutIs.part (by omega)
  | pack h k o t y =>
    obtain ⟨hk, b, hh, hH⟩ := hl
    rcases pack_ok hcfg r (o := o) y hk hh hH with e | ⟨v, p', s', e, r'⟩
    · left; rw [IAct.exec, e, Res.bind_env]
    · right
      refine ⟨_, _, _, w, ⟨rfl, rfl, b, hh, rfl⟩, ?_, r'⟩
      rw [IAct.exec, e, Res.bind_ok]; rfl
  | unpack i k o t =>
    obtain ⟨hk, hf, hlen⟩ := hl
    obtain ⟨y, rest, m, v, h1, h2, e, r'⟩ := unpack_ok r o hk hf hlen
    right
    refine ⟨_, _, _, w, ⟨rfl, y, rest, h1, h2, rfl, rfl⟩, ?_, r'⟩
    rw [IAct.exec, e, Res.bind_ok]
  | encrypt h key iv k =>
    obtain ⟨b, hc⟩ := hl
    rcases C56_encrypt (cfg := cfg) r.rep.sane (r.rep.obj h _ hc.1) (r.rep.cryptArgs hc) hc.2.1 with ⟨-, e⟩ | ⟨out, p', s', h1, h2⟩
    · left; rw [IAct.exec, e, Res.bind_env]
    · right
      obtain ⟨e, r'⟩ := r.crypted hc h2
      refine ⟨_, _, _, w, ⟨rfl, rfl, b, out, hc.1, h1, rfl⟩, ?_, r'⟩
      rw [IAct.exec, e, Res.bind_ok]; rfl
  | decrypt h key iv k =>
    obtain ⟨b, hc, out, hd⟩ := hl
    obtain ⟨k1, k2, c, q, plain, y, e1, e2, e3, e4, e5⟩ := hd
    rcases C56_decrypt_any (cfg := cfg) r.rep.sane (r.rep.obj h _ hc.1) (r.rep.cryptArgs hc) hc.2.1 e1 e2 e3 e4 with ⟨-, e⟩ | ⟨p', s', h2⟩
    · left; rw [IAct.exec, e, Res.bind_env]
    · right
      rw [← e5] at h2
      obtain ⟨e, r'⟩ := r.crypted hc h2
      refine ⟨_, _, _, w, ⟨rfl, rfl, b, out, hc.1, ⟨k1, k2, c, q, plain, y, e1, e2, e3, e4, e5⟩, rfl⟩, ?_, r'⟩
      rw [IAct.exec, e, Res.bind_ok]; rfl

end CStr
