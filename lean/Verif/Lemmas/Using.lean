import Verif.Spec.Using
import Verif.Lemmas.HeldViews
/-! Callbacks of `strbuf_append_using` that call the library. -/
namespace CStr

variable {cfg : Cfg} {dflt : Alloc} {K : Nat → List Byte} {ka : Nat → Addr}

theorem runAbs_append (cs ds : List Cmd) (σ : AState) : runAbs cfg dflt K (cs ++ ds) σ = runAbs cfg dflt K ds (runAbs cfg dflt K cs σ) := by
  induction cs generalizing σ with
  | nil => rfl
  | cons c cs ih => exact ih _

theorem LegalRun_append {cs ds : List Cmd} {σ : AState} (h : LegalRun cfg dflt K cs σ) (h' : LegalRun cfg dflt K ds (runAbs cfg dflt K cs σ)) :
    LegalRun cfg dflt K (cs ++ ds) σ := by
  induction cs generalizing σ with
  | nil => exact h'
  | cons c cs ih => exact ⟨h.1, ih h.2 h'⟩

theorem runExec_append (cs ds : List Cmd) (ρ : Vars) (s : St) :
    runExec cfg dflt K ka (cs ++ ds) ρ s = (runExec cfg dflt K ka cs ρ s).bind fun r => runExec cfg dflt K ka ds r.1 r.2 := by
  induction cs generalizing ρ s with
  | nil => rfl
  | cons c cs ih =>
    simp only [List.cons_append, runExec]
    cases c.exec cfg dflt K ka ρ s with
    | ok r => exact ih _ _
    | ub w => rfl
    | fuel => rfl
    | env w => rfl

theorem runAbs_frame {cs : List Cmd} {σ : AState} {k : Nat} (h : ∀ c ∈ cs, k ∉ c.changes) : runAbs cfg dflt K cs σ k = σ k := by
  induction cs generalizing σ with
  | nil => rfl
  | cons c cs ih =>
    rw [runAbs, ih (fun d hd => h d (List.mem_cons_of_mem _ hd)), Cmd.step_frame (h c List.mem_cons_self)]

theorem runExec_frame {cs : List Cmd} {ρ ρ' : Vars} {s s' : St} {k : Nat} (h : ∀ c ∈ cs, k ∉ c.changes) (e : runExec cfg dflt K ka cs ρ s = .ok (ρ', s')) :
    ρ' k = ρ k := by
  induction cs generalizing ρ s with
  | nil => cases e; rfl
  | cons c cs ih =>
    obtain ⟨⟨ρ1, s1⟩, e1, e2⟩ := Res.ok_of_bind e
    rw [ih (fun d hd => h d (List.mem_cons_of_mem _ hd)) e2, Cmd.exec_frame (h c List.mem_cons_self) e1]

/-- The commands of a legal program leave the busy buffers alone. -/
theorem UProg.flat_frame (p : UProg) : ∀ {busy : List Nat} {σ : AState}, p.Legal cfg dflt K busy σ → ∀ k ∈ busy, ∀ c ∈ p.flat cfg dflt K σ, k ∉ c.changes := by
  induction p with
  | done => intro busy σ _ k _ c hc; cases hc
  | cmd c rest ih =>
    intro busy σ h k hk d hd
    simp only [UProg.flat, List.mem_cons] at hd
    rcases hd with rfl | hd
    · exact h.2.1 k hk
    · exact ih h.2.2 k hk d hd
  | appendUsing j body x rest ih1 ih2 =>
    intro busy σ h k hk d hd
    obtain ⟨h1, h2, h3⟩ := h
    simp only [UProg.flat] at hd
    rcases hh : σ j with - | (b | ⟨l, al⟩ | n) <;> simp only [hh] at hd h3
    · exact ih2 h3 k hk d hd
    · rw [List.mem_append, List.mem_cons] at hd
      rcases hd with hd | rfl | hd
      · exact ih1 h3.1 k (List.mem_cons_of_mem _ hk) d hd
      · intro hm
        simp only [Cmd.changes, List.mem_cons, List.not_mem_nil, or_false] at hm
        exact h2 (hm ▸ hk)
      · exact ih2 h3.2.2 k hk d hd
    · exact ih2 h3 k hk d hd
    · exact ih2 h3 k hk d hd

/-- Appending by a callback is legal whatever the text. -/
theorem appendUsing_legal {σ : AState} {h : Nat} (hh : σ.Handle h) (t : List Byte) :
    (Cmd.op h (.appendUsing t)).Legal cfg dflt K σ := by
  refine ⟨hh, trivial, fun b hb => ?_⟩
  simp only [HOp.edit]
  split
  · next hl => exact ⟨.inr (.inl (by simpa [Edit.wanted] using hl)), hl⟩
  · exact ⟨.inr (.inl (by simp [Edit.wanted])), trivial⟩

/-- The free space of a buffer can be written to. -/
theorem BufAt.free {s : St} {p : Addr} {b : Buf} (h : BufAt s p b) {n : Nat} (hn : b.data.length + n ≤ b.cap) : Writable s.mem (cstrOf p + b.data.length) n := by
  intro i hi
  have h1 := h.pos
  have h2 := h.top
  have h3 := h.mapped (24 + b.data.length + i) (by simp only [storage]; omega)
  simp only [storage] at h2
  refine ⟨by simp only [cstrOf, hdrLen]; omega, by simp only [cstrOf, hdrLen]; omega, ?_⟩
  rw [show cstrOf p + (b.data.length : Int) + (i : Int) = p + ((24 + b.data.length + i : Nat) : Int) by simp only [cstrOf, hdrLen]; omega]
  exact h3

/-- A call whose callback runs `body` is the calls of `body` followed by a call whose callback only delivers the text. -/
theorem using_exec {σ σ1 : AState} {ρ ρ1 : Vars} {s s1 : St} (r : Rep K ka σ ρ s) (r1 : Rep K ka σ1 ρ1 s1) {h : Nat} {b : Buf} (hb : σ h = some (.buf b)) (h1 : σ1 h = σ h)
    (hρ : ρ1 h = ρ h) {x : Src} (hx : x.Legal K σ1) {f : Vars → St → Res (Vars × St)} (hf : f ρ s = .ok (ρ1, s1)) :
    ((strbuf_append_using_any cfg s ρ (some (ρ h)) (fun ρ s dst n => do
      let (ρ, s) ← f ρ s
      deliver K ka x ρ s dst n)).bind fun q => .ok (q.2.2.1.setPtr h q.2.1, q.2.2.2)) =
    (Cmd.op h (.appendUsing (x.bytes K σ1))).exec cfg dflt K ka ρ1 s1 := by
  have hba : BufAt s (ρ h) b := r.obj h _ hb
  have hba1 : BufAt s1 (ρ h) b := by rw [← hρ]; exact r1.obj h _ (h1.trans hb)
  obtain ⟨v, e1, e2⟩ := Src.facts r1 hx
  have hsz := e2.denotes.size
  have hlen := hba.len
  have hcm := hba.cap
  have hfet : ∃ n m, callFetcher (fetchText (x.bytes K σ1)) s1.mem (cstrOf (ρ h) + b.data.length) ((b.cap - b.data.length : Nat) : Int) = .ok (n, m) ∧
      deliver K ka x ρ1 s1 (cstrOf (ρ h) + b.data.length) ((b.cap - b.data.length : Nat) : Int) = .ok (n, ρ1, { s1 with mem := m }) := by
    have hmax := e2.denotes.max
    by_cases hfit : ((x.bytes K σ1).length : Int) ≤ ((b.cap - b.data.length : Nat) : Int)
    · have hw := hba1.free (n := (x.bytes K σ1).length) (by omega)
      refine ⟨(x.bytes K σ1).length, put s1.mem (cstrOf (ρ h) + b.data.length) (x.bytes K σ1), ?_, ?_⟩
      · have : fetchText (x.bytes K σ1) s1.mem (cstrOf (ρ h) + b.data.length) ((b.cap - b.data.length : Nat) : Int) = (x.bytes K σ1, ((x.bytes K σ1).length : Int)) := if_pos hfit
        simp only [callFetcher, this]
        rw [if_pos ⟨hfit, intmin_nat _, hmax⟩, writeBytes_eq hw, Res.bind_ok]
      · simp only [deliver, e1, Res.bind_ok]
        rw [if_pos (by rw [hsz]; exact hfit), e2.denotes.sizeT, memmove_eq e2.denotes.holds hw, Res.bind_ok, hsz]
    · refine ⟨-1, s1.mem, ?_, ?_⟩
      · have : fetchText (x.bytes K σ1) s1.mem (cstrOf (ρ h) + b.data.length) ((b.cap - b.data.length : Nat) : Int) = ([], -1) := if_neg hfit
        simp only [callFetcher, this]
        rw [if_pos ⟨by simp, by decide, by decide⟩]
        rfl
      · simp only [deliver, e1, Res.bind_ok]
        rw [if_neg (by rw [hsz]; exact hfit)]
  obtain ⟨n, m, g1, g2⟩ := hfet
  have hsp : addInt cfg (b.cap : Int) (-(b.data.length : Int)) = .ok ((b.cap - b.data.length : Nat) : Int) := addInt_nat cfg (by omega) (by omega)
  simp only [strbuf_append_using_any, Cmd.exec, HOp.eval, Res.bind_ok, BufOp.run, strbuf_append_using, hρ, deref_some hba.pos, hba.getCap, hba.getSize, hba1.getCap, hba1.getSize,
    hsp, hf, g1, g2]
  split
  · cases empty_buf m (ρ h) <;> rfl
  · cases getSize m (ρ h) with
    | ok z =>
      simp only [Res.bind_ok]
      cases addInt cfg z n with
      | ok k =>
        simp only [Res.bind_ok]
        cases setSize m (ρ h) k with
        | ok m2 =>
          simp only [Res.bind_ok]
          cases getSize m2 (ρ h) with
          | ok z2 =>
            simp only [Res.bind_ok]
            cases store m2 (cstrOf (ρ h) + z2) 0 with
            | ok m3 =>
              simp only [Res.bind_ok]
              cases strview_of_buf m3 (ρ h) <;> rfl
            | _ => rfl
          | _ => rfl
        | _ => rfl
      | _ => rfl
    | _ => rfl

theorem UProg.flat_legal (p : UProg) : ∀ {busy : List Nat} {σ : AState}, p.Legal cfg dflt K busy σ → LegalRun cfg dflt K (p.flat cfg dflt K σ) σ := by
  induction p with
  | done => intro busy σ _; trivial
  | cmd c rest ih => intro busy σ h; exact ⟨h.1, ih h.2.2⟩
  | appendUsing j body x rest ih1 ih2 =>
    intro busy σ h
    obtain ⟨h1, h2, h3⟩ := h
    simp only [UProg.flat]
    rcases hh : σ j with - | (b | ⟨l, al⟩ | n) <;> simp only [hh] at h3 ⊢
    · exact ih2 h3
    · refine LegalRun_append (ih1 h3.1) ⟨appendUsing_legal ?_ _, ih2 h3.2.2⟩
      have : runAbs cfg dflt K (body.flat cfg dflt K σ) σ j = σ j := runAbs_frame (body.flat_frame h3.1 j List.mem_cons_self)
      intro o ho
      rw [this] at ho
      exact h1 o ho
    · exact ih2 h3
    · exact ih2 h3

theorem UProg.exec_flat (hcfg : cfg.Ok) (p : UProg) : ∀ {busy : List Nat} {σ : AState} {ρ : Vars} {s : St}, Rep K ka σ ρ s → p.Legal cfg dflt K busy σ →
    p.exec cfg dflt K ka ρ s = runExec cfg dflt K ka (p.flat cfg dflt K σ) ρ s := by
  induction p with
  | done => intros; rfl
  | cmd c rest ih =>
    intro busy σ ρ s r h
    simp only [UProg.exec, UProg.flat, runExec]
    rcases exec_ok hcfg r h.1 with e | ⟨ρ1, s1, e, r1⟩
    · simp only [e, Res.bind_env]
    · simp only [e, Res.bind_ok]
      exact ih r1 h.2.2
  | appendUsing j body x rest ih1 ih2 =>
    intro busy σ ρ s r h
    obtain ⟨h1, h2, h3⟩ := h
    rcases hh : σ j with - | o
    · simp only [UProg.exec, UProg.flat]
      simp only [hh] at h3 ⊢
      have h0 := r.null j hh
      have : strbuf_append_using_any cfg s ρ (some (ρ j)) (fun ρ s dst n => do
          let (ρ, s) ← body.exec cfg dflt K ka ρ s
          deliver K ka x ρ s dst n) = .ok (.invalid, some (ρ j), ρ, s) := by
        simp only [strbuf_append_using_any, deref, h0]
        rfl
      simp only [this, Res.bind_ok]
      rw [show ρ.setPtr j (some (ρ j)) = ρ from Vars.set_self rfl]
      exact ih2 r h3
    · obtain ⟨b, rfl⟩ := h1 o hh
      have hba : BufAt s (ρ j) b := r.obj j _ hh
      simp only [UProg.flat]
      simp only [hh] at h3 ⊢
      obtain ⟨h3, h4, h5⟩ := h3
      have hbody := ih1 r h3
      have hfr := body.flat_frame h3 j List.mem_cons_self
      have hlen := hba.len
      have hcm := hba.cap
      have hsp : addInt cfg (b.cap : Int) (-(b.data.length : Int)) = .ok ((b.cap - b.data.length : Nat) : Int) := addInt_nat cfg (by omega) (by omega)
      rw [runExec_append]
      rcases run_ok hcfg (dflt := dflt) _ r (body.flat_legal h3) with e | ⟨ρ1, s1, e, r1⟩
      · rw [e] at hbody ⊢
        simp only [UProg.exec, strbuf_append_using_any, deref_some hba.pos, hba.getCap, hba.getSize, hsp, hbody, Res.bind_ok, Res.bind_env]
        rfl
      · rw [e] at hbody ⊢
        have h6 : runAbs cfg dflt K (body.flat cfg dflt K σ) σ j = σ j := runAbs_frame hfr
        have hu := using_exec (cfg := cfg) (dflt := dflt) r r1 hh h6 (runExec_frame hfr e) h4 (f := body.exec cfg dflt K ka) hbody
        show UProg.exec _ _ _ _ _ _ _ = runExec _ _ _ _ _ ρ1 s1
        simp only [UProg.exec, runExec]
        rw [← hu]
        rcases exec_ok hcfg r1 (appendUsing_legal (cfg := cfg) (dflt := dflt) (h := j) (fun o ho => h1 o (by rw [← h6]; exact ho)) (x.bytes K (runAbs cfg dflt K (body.flat cfg dflt K σ) σ)))
          with e' | ⟨ρ2, s2, e', r2⟩
        · rw [e'] at hu
          rw [hu]
          cases hq : strbuf_append_using_any cfg s ρ (some (ρ j)) (fun ρ s dst n => do
              let (ρ, s) ← body.exec cfg dflt K ka ρ s
              deliver K ka x ρ s dst n) with
          | ok q => rw [hq] at hu; cases hu
          | ub w => rw [hq] at hu; cases hu
          | fuel => rw [hq] at hu; cases hu
          | env w => rw [hq] at hu; cases hu; rfl
        · rw [e'] at hu
          rw [hu]
          cases hq : strbuf_append_using_any cfg s ρ (some (ρ j)) (fun ρ s dst n => do
              let (ρ, s) ← body.exec cfg dflt K ka ρ s
              deliver K ka x ρ s dst n) with
          | ok q =>
            rw [hq] at hu
            cases hu
            exact ih2 r2 h5
          | ub w => rw [hq] at hu; cases hu
          | fuel => rw [hq] at hu; cases hu
          | env w => rw [hq] at hu; cases hu

/-! ### Any callback -/

theorem LeftAlone.raw {s s0 : St} {p : Addr} {b : Buf} (h0 : BufAt s0 p b) (h : LeftAlone s p b) {t : List Byte} (ht : Holds s.mem (p + 24 + b.data.length) t)
    (hl : b.data.length + t.length ≤ b.cap) : ∃ y J, b.data.length + t.length + (y :: J).length = b.cap + 1 ∧ Raw s.mem p b.data.length b.cap b.al (b.data ++ t ++ y :: J) := by
  have hlen := h0.len
  have hcm := h0.cap
  have hp := h0.pos
  have htop := h0.top
  simp only [storage] at htop
  let J : List Byte := (List.range (b.cap + 1 - (b.data.length + t.length))).map
    fun i => (s.mem (p + ((24 + b.data.length + t.length + i : Nat) : Int))).getD 0
  have hJ : J.length = b.cap + 1 - (b.data.length + t.length) := by simp [J]
  have hhJ : Holds s.mem (p + ((24 + b.data.length + t.length : Nat) : Int)) J := by
    intro i hi
    have hm := h.mapped (24 + b.data.length + t.length + i) (by simp only [storage]; omega)
    rw [show p + ((24 + b.data.length + t.length : Nat) : Int) + (i : Int) = p + ((24 + b.data.length + t.length + i : Nat) : Int) by omega]
    simp only [rd]
    rw [if_neg (by omega), if_neg (by omega)]
    simp only [J, List.getElem_map, List.getElem_range]
    obtain ⟨y, hy⟩ := Option.isSome_iff_exists.1 hm
    rw [hy]; rfl
  have hraw : Raw s.mem p b.data.length b.cap b.al (b.data ++ t ++ J) := by
    refine ⟨h0.pos, h0.aligned, by simp only [List.length_append, hJ]; omega, by omega, hcm, h0.app, h0.fn, ?_⟩
    have e : hdrBytes b.data.length b.cap b.al ++ (b.data ++ t ++ J) = (hdrBytes b.data.length b.cap b.al ++ b.data) ++ (t ++ J) := by simp
    rw [e, Holds.append_iff]
    refine ⟨h.holds, Holds.append_iff.2 ⟨?_, ?_⟩⟩
    · rw [List.length_append, hdrBytes_length]
      rwa [show p + ((24 + b.data.length : Nat) : Int) = p + 24 + b.data.length by omega]
    · rw [List.length_append, hdrBytes_length]
      rwa [show p + ((24 + b.data.length : Nat) : Int) + (t.length : Int) = p + ((24 + b.data.length + t.length : Nat) : Int) by omega]
  cases hj : J with
  | nil => rw [hj] at hJ; simp only [List.length_nil] at hJ; omega
  | cons y J' => exact ⟨y, J', by rw [← hj, hJ]; omega, by rw [← hj]; exact hraw⟩

end CStr
