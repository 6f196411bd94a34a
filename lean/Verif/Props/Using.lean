import Verif.Lemmas.Using
import Verif.Props.BufHist
import Verif.Props.BufText
/-! Property C85: callbacks of `strbuf_append_using` may use the library. The specification is in Spec/Using.lean. -/
namespace CStr

/-- C85. On callbacks that only write to the memory they are given, the general model of `strbuf_append_using` agrees with the one the other properties are about. -/
theorem C85_simple (cfg : Cfg) (s : St) (bp : Option Addr) (f : Fetcher) :
    strbuf_append_using_any cfg s () bp f.callback = (strbuf_append_using cfg s bp f).bind fun r => .ok (r.1, r.2.1, (), r.2.2) := by
  simp only [strbuf_append_using_any, strbuf_append_using, Fetcher.callback]
  cases deref bp with
  | none => rfl
  | some p =>
    simp only
    cases getCap s.mem p with
    | ok cap =>
      simp only [Res.bind_ok]
      cases getSize s.mem p with
      | ok size =>
        simp only [Res.bind_ok]
        cases addInt cfg cap (-size) with
        | ok a =>
          simp only [Res.bind_ok]
          cases callFetcher f s.mem (cstrOf p + size) a with
          | ok q =>
            simp only [Res.bind_ok]
            split
            · cases empty_buf q.2 p <;> rfl
            · cases getSize q.2 p with
              | ok z =>
                simp only [Res.bind_ok]
                cases addInt cfg z q.1 with
                | ok k =>
                  simp only [Res.bind_ok]
                  cases setSize q.2 p k with
                  | ok m2 =>
                    simp only [Res.bind_ok]
                    cases getSize m2 p with
                    | ok z2 =>
                      simp only [Res.bind_ok]
                      cases store m2 (cstrOf p + z2) 0 with
                      | ok m3 =>
                        simp only [Res.bind_ok]
                        cases strview_of_buf m3 p <;> rfl
                      | _ => rfl
                    | _ => rfl
                  | _ => rfl
                | _ => rfl
              | _ => rfl
          | _ => rfl
        | _ => rfl
      | _ => rfl
    | _ => rfl

/-- C85. Whatever else a callback does: if it returns a number `r` between 0 and the free space and leaves the buffer's header, content and storage alone, the content grows by exactly the `r` bytes
that it left in the free space, and outside the buffer everything is as the callback left it. -/
theorem C85_any_callback {ε : Type} {cfg : Cfg} {s : St} {p : Addr} {b : Buf} (hb : BufAt s p b) {e e' : ε} {f : Callback ε} {r : Int} {s' : St}
    (hf : f e s (p + 24 + b.data.length) ((b.cap - b.data.length : Nat) : Int) = .ok (r, e', s')) (hk : LeftAlone s' p b)
    {t : List Byte} (ht : Holds s'.mem (p + 24 + b.data.length) t) (hr : r = t.length) (hl : b.data.length + t.length ≤ b.cap) :
    ∃ s'', strbuf_append_using_any cfg s e (some p) f = .ok (⟨p + 24, (b.data ++ t).length⟩, some p, e', s'') ∧
      BufAt s'' p ⟨b.data ++ t, b.cap, b.al⟩ ∧ (∀ a, ¬ InRange p (storage b.cap) a → s''.mem a = s'.mem a) ∧
      s''.live = s'.live ∧ s''.log = s'.log ∧ s''.calls = s'.calls ∧ s''.picks = s'.picks := by
  obtain ⟨y, J, hJ, hraw⟩ := hk.raw hb ht hl
  subst hr
  have hlen := hb.len
  have hcm := hb.cap
  have hsp : addInt cfg (b.cap : Int) (-(b.data.length : Int)) = .ok ((b.cap - b.data.length : Nat) : Int) := addInt_nat cfg (by omega) (by omega)
  obtain ⟨m2, e2, r2, w2⟩ := hraw.setSize (v := b.data.length + t.length) (by omega)
  obtain ⟨m3, e3, r3, w3⟩ := r2.store 0
  have elen : (b.data ++ t).length = b.data.length + t.length := List.length_append
  have hst : 24 + (b.data ++ t ++ y :: J).length = storage b.cap := by simp only [List.length_append, storage]; omega
  rw [hst] at w2 w3
  rw [elen] at e3
  refine ⟨{ s' with mem := m3 }, ?_, BufAt.of_raw (J := J) (by rw [elen]; exact r3) (by rw [elen]; simp only [List.length_cons] at hJ; omega) hk.heap, w2.trans w3, rfl, rfl, rfl, rfl⟩
  have hf' : f e s (cstrOf p + b.data.length) ((b.cap - b.data.length : Nat) : Int) = .ok ((t.length : Int), e', s') := hf
  simp only [strbuf_append_using_any, deref_some hb.pos, hb.getCap, hb.getSize, hsp, hf', Res.bind_ok]
  rw [if_neg (by omega), hraw.getSize, Res.bind_ok, addInt_nat cfg (n := b.data.length + t.length) (by omega) (by omega), Res.bind_ok, e2, Res.bind_ok, r2.getSize, Res.bind_ok, e3, Res.bind_ok,
    r3.view_of, Res.bind_ok, elen]

/-- C85. If it returns any other number, the buffer is emptied and an invalid view returned; again everything else is as the callback left it. -/
theorem C85_any_callback_fault {ε : Type} {cfg : Cfg} {s : St} {p : Addr} {b : Buf} (hb : BufAt s p b) {e e' : ε} {f : Callback ε} {r : Int} {s' : St}
    (hf : f e s (p + 24 + b.data.length) ((b.cap - b.data.length : Nat) : Int) = .ok (r, e', s')) (hk : LeftAlone s' p b)
    (hr : r < 0 ∨ (b.cap : Int) < b.data.length + r) :
    ∃ s'', strbuf_append_using_any cfg s e (some p) f = .ok (.invalid, some p, e', s'') ∧
      BufAt s'' p ⟨[], b.cap, b.al⟩ ∧ (∀ a, ¬ InRange p (storage b.cap) a → s''.mem a = s'.mem a) ∧
      s''.live = s'.live ∧ s''.log = s'.log ∧ s''.calls = s'.calls ∧ s''.picks = s'.picks := by
  have hlen := hb.len
  have hcm := hb.cap
  obtain ⟨y, J, hJ, hraw⟩ := hk.raw hb (t := []) (Holds.nil _ _) hlen
  obtain ⟨y', Z, hyz⟩ : ∃ y' Z, b.data ++ [] ++ y :: J = y' :: Z := by
    cases b.data with
    | nil => exact ⟨y, J, rfl⟩
    | cons a l => exact ⟨a, _, rfl⟩
  have hst : 24 + (b.data ++ [] ++ y :: J).length = storage b.cap := by simp only [List.length_append, storage]; omega
  rw [hyz] at hraw hst
  obtain ⟨m2, e2, r2, w2⟩ := hraw.empty
  have hsp : addInt cfg (b.cap : Int) (-(b.data.length : Int)) = .ok ((b.cap - b.data.length : Nat) : Int) := addInt_nat cfg (by omega) (by omega)
  rw [hst] at w2
  refine ⟨{ s' with mem := m2 }, ?_, BufAt.of_raw (l := []) (J := Z) r2 (by simp only [List.length_cons, storage] at hst; simp only [List.length_nil]; omega) hk.heap, w2, rfl, rfl, rfl, rfl⟩
  have hf' : f e s (cstrOf p + b.data.length) ((b.cap - b.data.length : Nat) : Int) = .ok (r, e', s') := hf
  simp only [strbuf_append_using_any, deref_some hb.pos, hb.getCap, hb.getSize, hsp, hf', Res.bind_ok]
  rw [if_pos (by omega), e2, Res.bind_ok]

/-- C85. Callbacks that call the library, to any depth: running the program with its callbacks gives exactly the same result (variables, memory, heap, allocator calls) as
running the calls one after another, those of a callback before the call it serves. And these calls form a legal program. -/
theorem C85_sequential {cfg : Cfg} (hcfg : cfg.Ok) {dflt : Alloc} {K : Nat → List Byte} {ka : Nat → Addr} {σ : AState} {ρ : Vars} {s : St} (r : Rep K ka σ ρ s) (p : UProg)
    (hl : p.Legal cfg dflt K [] σ) :
    p.exec cfg dflt K ka ρ s = runExec cfg dflt K ka (p.flat cfg dflt K σ) ρ s ∧ LegalRun cfg dflt K (p.flat cfg dflt K σ) σ :=
  ⟨p.exec_flat hcfg r hl, p.flat_legal hl⟩

/-- C85. So such a program ends, unless an allocator gives an illegal answer, in a state that represents what the program means on byte strings. -/
theorem C85_refinement {cfg : Cfg} (hcfg : cfg.Ok) {dflt : Alloc} {K : Nat → List Byte} {ka : Nat → Addr} {σ : AState} {ρ : Vars} {s : St} (r : Rep K ka σ ρ s) (p : UProg)
    (hl : p.Legal cfg dflt K [] σ) :
    p.exec cfg dflt K ka ρ s = .env .alloc ∨
      ∃ ρ' s', p.exec cfg dflt K ka ρ s = .ok (ρ', s') ∧ Rep K ka (runAbs cfg dflt K (p.flat cfg dflt K σ) σ) ρ' s' := by
  rw [p.exec_flat hcfg r hl]
  exact run_ok hcfg _ r (p.flat_legal hl)

/-! ### A callback must not move the buffer it serves -/

theorem getSize_gone {m : Mem} {p : Addr} (h0 : 0 < p) (ha : p % 8 = 0) (ht : p < litBase) (h : m p = none) : getSize m p = .ub .badRead := by
  have hc : checkPtr p = .ok () := by rw [checkPtr, if_neg (by omega)]
  have hr : rd m p = none := by rw [rd_mid h0 ht]; exact h
  have : load m p = .ub .badRead := by simp only [load, hr]
  rw [getSize, getField, hc, Res.bind_ok, show p + ((0 : Nat) : Int) = p by omega]
  simp only [readBytes, this]
  rfl

theorem setSize_gone {m : Mem} {p : Addr} (h0 : 0 < p) (ha : p % 8 = 0) (ht : p < litBase) (h : m p = none) (v : Int) : setSize m p v = .ub .badWrite := by
  have hc : checkPtr p = .ok () := by rw [checkPtr, if_neg (by omega)]
  rw [setSize, setField, hc, Res.bind_ok, show p + ((0 : Nat) : Int) = p by omega]
  simp only [leBytes, writeBytes, store]
  rw [h]
  simp

/-- C85 is limited to callbacks that leave the storage of the buffer where it is: if the callback has it moved or released, `strbuf_append_using` goes on with the old address, which is undefined
behaviour, whatever the callback returns. -/
theorem C85_moved_buffer {ε : Type} {cfg : Cfg} {s : St} {p : Addr} {b : Buf} (hb : BufAt s p b) {e e' : ε} {f : Callback ε} {r : Int} {s' : St}
    (hf : f e s (p + 24 + b.data.length) ((b.cap - b.data.length : Nat) : Int) = .ok (r, e', s')) (hgone : s'.mem p = none) :
    ∃ w, strbuf_append_using_any cfg s e (some p) f = .ub w := by
  have hlen := hb.len
  have hcm := hb.cap
  have htop := hb.top
  simp only [storage] at htop
  have hsp : addInt cfg (b.cap : Int) (-(b.data.length : Int)) = .ok ((b.cap - b.data.length : Nat) : Int) := addInt_nat cfg (by omega) (by omega)
  have hf' : f e s (cstrOf p + b.data.length) ((b.cap - b.data.length : Nat) : Int) = .ok (r, e', s') := hf
  simp only [strbuf_append_using_any, deref_some hb.pos, hb.getCap, hb.getSize, hsp, hf', Res.bind_ok]
  split
  · exact ⟨.badWrite, by rw [empty_buf, setSize_gone hb.pos hb.aligned (by omega) hgone]; rfl⟩
  · exact ⟨.badRead, by rw [getSize_gone hb.pos hb.aligned (by omega) hgone]; rfl⟩

/-- A callback that finds the free space too small and has the buffer enlarged, through the program's variable. -/
def growing (n : Int) : Callback Addr := fun q s _ _ => do
  let (_, bp, s) ← strbuf_grow s (some q) n
  .ok (0, bp.getD 0, s)

/-- C85. In particular the callback must not call `strbuf_grow` on the buffer when that moves it to another place, even if it keeps the program's pointer up to date. -/
theorem C85_grow_in_callback {cfg : Cfg} {s : St} (hs : s.Sane) {p : Addr} {b : Buf} (hb : BufAt s p b) (hd : b.Dynamic) {n : Int} (hn : n ≤ INT_MAX) {v : View} {p' : Addr} {s' : St}
    (hg : strbuf_grow s (some p) n = .ok (v, some p', s')) (hp : ¬ InRange p' (storage (max b.cap n.toNat)) p) :
    ∃ w, strbuf_append_using_any cfg s p (some p) (growing n) = .ub w := by
  rcases grow_yields hs hb hd hn with ⟨-, e⟩ | ⟨p1, s1, e, h⟩
  · rw [hg] at e; cases e
  · rw [hg] at e
    cases e
    refine C85_moved_buffer hb (e' := p') (r := 0) (s' := s') ?_ (h.only.left p (by simp only [InRange, storage]; omega) hp)
    simp only [growing, hg, Res.bind_ok]
    rfl

/-! ### Examples -/

-- the hypotheses of the last theorem are met by a buffer that has to move
example : ∃ w, strbuf_append_using_any exCfg (exSt exB []) exP (some exP) (growing 100) = .ub w := by
  have hok : (match strbuf_grow (exSt exB []) (some exP) 100 with
    | .ok (_, some q, _) => decide (exP + storage exB.cap ≤ q)
    | _ => false) = true := by decide +kernel
  cases hg : strbuf_grow (exSt exB []) (some exP) 100 with
  | ok r =>
    obtain ⟨v, bp, s'⟩ := r
    rw [hg] at hok
    cases bp with
    | none => cases hok
    | some q =>
      have := of_decide_eq_true hok
      refine C85_grow_in_callback (exSt_sane exB_valid []) (exSt_buf exB_valid []) (by decide) (by decide) hg ?_
      simp only [InRange]
      have h2 : (0 : Int) < storage exB.cap := by decide
      omega
  | ub w => rw [hg] at hok; cases hok
  | fuel => rw [hg] at hok; cases hok
  | env w => rw [hg] at hok; cases hok

/-- A callback inside a callback: buffer 0 holds "l"; its callback creates buffer 1, whose callback creates buffer 2 with "ab" and delivers that; then "l" is copied from buffer 0, which is being
appended to, buffer 2 is destroyed, and the content of buffer 1 is delivered. At the end buffer 1 is destroyed. -/
def nested : UProg :=
  .cmd (.createEmpty 0 32 none) <| .cmd (.op 0 (.append (.const 1))) <|
  .appendUsing 0
    (.cmd (.createEmpty 1 16 none) <|
      .appendUsing 1 (.cmd (.createInit 2 (.const 0) none) .done) (.sub 2 0 2147483647) <|
      .cmd (.op 1 (.append (.sub 0 0 1))) <| .cmd (.destroy 2) .done)
    (.sub 1 0 2147483647) <|
  .cmd (.destroy 1) .done

theorem nested_legal : nested.Legal exCfg ⟨0, 1⟩ demoK [] (fun _ => none) := by
  have hb : ∀ {b : Buf}, ∀ o, some (Obj.buf b) = some o → ∃ b, o = .buf b := fun o h => ⟨_, (Option.some.inj h).symm⟩
  have hi : INT_MIN ≤ 0 ∧ 0 ≤ INT_MAX ∧ INT_MIN ≤ 2147483647 ∧ 2147483647 ≤ INT_MAX := by decide
  refine ⟨⟨rfl, ⟨by decide, by decide, by decide⟩, by decide⟩, (fun _ h => by cases h), ⟨hb, trivial, ?_⟩, (fun _ h => by cases h), hb, (fun h => by cases h),
    ⟨⟨rfl, ⟨by decide, by decide, by decide⟩, by decide⟩, by decide, hb, by decide, ⟨⟨rfl, ⟨by decide, by decide, by decide⟩, trivial⟩, by decide, trivial⟩, ⟨hb, hi⟩,
      ⟨hb, ⟨hb, by decide⟩, ?_⟩, by decide, hb, by decide, trivial⟩,
    ⟨hb, hi⟩, hb, (fun _ h => by cases h), trivial⟩
  · intro b e; cases e; exact ⟨.inl rfl, (by decide : INT_MIN ≤ 0 ∧ 0 ≤ INT_MAX)⟩
  · intro b e; cases e; exact ⟨.inl rfl, (by decide : INT_MIN ≤ 2 ∧ 2 ≤ INT_MAX)⟩

example : ∃ ρ' s', nested.exec exCfg ⟨0, 1⟩ demoK demoKa (fun _ => 0) demoSt = .ok (ρ', s') ∧ BufAt s' (ρ' 0) ⟨[108, 97, 98, 108], 32, ⟨0, 1⟩⟩ ∧ ρ' 1 = 0 ∧ ρ' 2 = 0 := by
  rcases C85_refinement (dflt := ⟨0, 1⟩) exCfg_ok demoStart.rep nested nested_legal with e | ⟨ρ', s', e, r⟩
  · have : (nested.exec exCfg ⟨0, 1⟩ demoK demoKa (fun _ => 0) demoSt).isOk = true := by decide +kernel
    rw [e] at this; cases this
  · exact ⟨ρ', s', e, r.obj 0 _ rfl, r.null 1 rfl, r.null 2 rfl⟩

-- and as a sequence of calls
example : nested.flat exCfg ⟨0, 1⟩ demoK (fun _ => none) =
    [.createEmpty 0 32 none, .op 0 (.append (.const 1)), .createEmpty 1 16 none, .createInit 2 (.const 0) none, .op 1 (.appendUsing [97, 98]), .op 1 (.append (.sub 0 0 1)),
      .destroy 2, .op 0 (.appendUsing [97, 98, 108]), .destroy 1] := rfl

/-- A callback that counts its calls in its own data, writes two bytes, and reports `r`. -/
def counting (r : Int) : Callback Nat := fun k s dst _ => do
  let m ← writeBytes s.mem dst [65, 66]
  .ok (r, k + 1, { s with mem := m })

/-- The state this callback leaves. -/
def countingSt : St := { exSt exF [] with mem := put (exSt exF []).mem (exP + 24 + exF.data.length) [65, 66] }

theorem counting_eq (r : Int) : counting r 7 (exSt exF []) (exP + 24 + exF.data.length) ((exF.cap - exF.data.length : Nat) : Int) = .ok (r, 8, countingSt) := by
  have hw : Writable (exSt exF []).mem (exP + 24 + exF.data.length) 2 := (exSt_buf exF_valid []).free (by decide)
  simp only [counting, writeBytes_eq (l := [65, 66]) hw, Res.bind_ok, countingSt]

theorem counting_left : LeftAlone countingSt exP exF :=
  ⟨by simp only [Holds]; decide +kernel, by decide +kernel, by decide⟩

-- it reports one byte: "hello" becomes "helloA"
example : ∃ s'', strbuf_append_using_any isoCfg (exSt exF []) 7 (some exP) (counting 1) = .ok (⟨exP + 24, 6⟩, some exP, 8, s'') ∧
    BufAt s'' exP ⟨[104, 101, 108, 108, 111, 65], 8, ⟨0, 0⟩⟩ := by
  obtain ⟨s'', h1, h2, -⟩ := C85_any_callback (cfg := isoCfg) (exSt_buf exF_valid []) (counting_eq 1) counting_left (t := [65]) (by simp only [Holds]; decide +kernel) rfl (by decide)
  exact ⟨s'', h1, h2⟩

-- it reports more than the free space of three bytes
example : ∃ s'', strbuf_append_using_any isoCfg (exSt exF []) 7 (some exP) (counting 4) = .ok (.invalid, some exP, 8, s'') ∧ BufAt s'' exP ⟨[], 8, ⟨0, 0⟩⟩ := by
  obtain ⟨s'', h1, h2, -⟩ := C85_any_callback_fault (cfg := isoCfg) (exSt_buf exF_valid []) (counting_eq 4) counting_left (.inr (by decide))
  exact ⟨s'', h1, h2⟩

end CStr
