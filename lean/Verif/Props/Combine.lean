import Verif.Spec.Combine
import Verif.Props.Line
import Verif.Props.Find
import Verif.Props.Split
import Verif.Props.SubTrim
import Verif.Props.BufInsert
import Verif.Props.BufSize
import Verif.Props.BufHist
import Verif.Props.Prnf
import Verif.Props.Int
/-
  C78: calls can be combined as the documentation shows.
-/
namespace CStr

theorem Elsewhere.after {s s' : St} {p p' : Addr} {n n' : Nat} {v : View} {l : List Byte} (h : Elsewhere s p n v l)
    (ho : OnlyBlock s s' p n p' n') (hn' : 0 < n') (htop : p' + n' ≤ litBase) : Elsewhere s' p' n' v l := by
  obtain ⟨h1, h2⟩ := ho.keeps hn' htop h.holds h.apart
  exact ⟨⟨h.size, h.max, h1⟩, h2⟩

theorem Elsewhere.source {s : St} {p : Addr} {b : Buf} {v : View} {l : List Byte} (h : Elsewhere s p (storage b.cap) v l) : Source s p b v l := by
  refine ⟨h.toDenotes, ?_⟩
  rcases h.apart with h | h | h
  exacts [.inl h, .inr (.inl h), .inr (.inr (.inl h))]

theorem storage_pos (n : Nat) : 0 < storage n := by simp only [storage]; omega

theorem Buf.HasRoom.fits {b : Buf} {cfg : Cfg} {n : Nat} (hcfg : cfg.Ok) (h : b.HasRoom cfg n) {k : Nat} (hk : k ≤ n) : b.Fits k ∧ cfg.Handles b k := by
  have := hcfg.pos
  rcases h with h | ⟨h1, h2⟩
  · exact ⟨.inl (by omega), .inr (.inl (by omega))⟩
  · exact ⟨.inr ⟨h1, by omega⟩, .inr (.inr (.inl (by omega)))⟩

/-- There is still room after an operation. -/
theorem Buf.HasRoom.after {b : Buf} {cfg : Cfg} (hcfg : cfg.Ok) {n : Nat} (h : b.HasRoom cfg n) (d : List Byte) (k : Nat) :
    Buf.HasRoom ⟨d, b.capFor cfg k, b.al⟩ cfg n := by
  have := cap_le_capFor hcfg (b := b) k
  rcases h with h | h
  · exact .inl (by simp only; omega)
  · exact .inr h

/-- Data of the example states is outside the buffer. -/
theorem exSt_elsewhere {b : Buf} (hb : b.Valid) {l : List Byte} (hl : (l.length : Int) ≤ INT_MAX) (i n : Nat) (h : i + n ≤ l.length) :
    Elsewhere (exSt b l) exP (storage b.cap) ⟨exQ + i, n⟩ ((l.drop i).take n) := by
  have hlen : ((l.drop i).take n).length = n := by
    rw [List.length_take, List.length_drop]; omega
  have h2 := hb.cap
  simp only [INT_MAX] at h2
  refine ⟨⟨by rw [hlen], by rw [hlen]; omega, ((exSt_other hl).holds.drop i (by omega)).take n⟩, .inr (.inr ?_)⟩
  simp only [storage, exP, exQ]; omega

/-- What a call leaves in the buffer, for the examples. -/
def contentOf (r : BufRes) : Res (List Byte) :=
  match r with
  | .ok (v, _, s) => readBytes s.mem v.data v.size.toNat
  | _ => .fuel

/-- A fixed buffer that contains `  a b `. -/
def exTrim : Buf := ⟨[32, 32, 97, 32, 98, 32], 6, ⟨0, 0⟩⟩

theorem exTrim_valid : exTrim.Valid := ⟨by decide, by decide, by decide, by decide⟩

/-- The same in a dynamic buffer. -/
def exTrimDyn : Buf := ⟨[32, 32, 97, 32, 98, 32], 6, ⟨1, 2⟩⟩

/-- C78. Trimming the content of a buffer by assigning it the trimmed view of itself: the content is what it was without the leading and
trailing characters given, in the same place. -/
theorem C78_trim_buffer {cfg : Cfg} (hcfg : cfg.Ok) {s : St} (hs : s.Sane) {p : Addr} {b : Buf} (hb : BufAt s p b)
    {chars : View} {cs : List Byte} (hc : Denotes s.mem chars cs) :
    ∃ pre rest suf, b.data = pre ++ rest ++ suf ∧ (∀ x ∈ pre, x ∈ cs) ∧ (∀ x ∈ suf, x ∈ cs) ∧
      (∀ x, rest.head? = some x → x ∉ cs) ∧ (∀ x, rest.getLast? = some x → x ∉ cs) ∧
      ∃ s', trimBuffer cfg s p chars = .ok (⟨p + 24, rest.length⟩, some p, s') ∧ BufAt s' p ⟨rest, b.cap, b.al⟩ ∧
        (∀ a, ¬ InRange p (storage b.cap) a → s'.mem a = s.mem a) ∧ s'.live = s.live ∧ s'.log = s.log ∧ s'.calls = s.calls := by
  obtain ⟨pre, rest, suf, h1, h2, h3, h4, h5, h6, h7⟩ := C06_trim hb.viewOf.toDenotes hc
  have hlen := congrArg List.length h1
  simp only [List.length_append] at hlen
  have hcap := hb.len
  have hsrc := hb.partSource pre.length rest.length (by omega)
  have he : (b.data.drop pre.length).take rest.length = rest := by rw [h1]; simp
  rw [he] at hsrc
  have hy := C36_assign hcfg hs hb hsrc (by have := hb.pos; simp only; omega) (.inl (by omega)) (.inr (.inl (by omega)))
  rw [capFor_same (by omega)] at hy
  refine ⟨pre, rest, suf, h1, h2, h3, h4, h5, ?_⟩
  have e : trimBuffer cfg s p chars = strbuf_assign cfg s (some p) ⟨p + 24 + pre.length, rest.length⟩ := by
    simp only [trimBuffer, strbuf_view, deref_some hb.pos, hb.view, Res.bind_ok, h6]
    rfl
  rw [e]
  exact hy.inPlace

example : ∃ pre rest suf, exTrim.data = pre ++ rest ++ suf ∧ (∀ x ∈ pre, x ∈ ([32] : List Byte)) ∧ (∀ x ∈ suf, x ∈ ([32] : List Byte)) ∧
      (∀ x, rest.head? = some x → x ∉ ([32] : List Byte)) ∧ (∀ x, rest.getLast? = some x → x ∉ ([32] : List Byte)) ∧
      ∃ s', trimBuffer isoCfg (exSt exTrim [32]) exP ⟨exQ, 1⟩ = .ok (⟨exP + 24, rest.length⟩, some exP, s') ∧
        BufAt s' exP ⟨rest, 6, ⟨0, 0⟩⟩ ∧ (∀ a, ¬ InRange exP (storage 6) a → s'.mem a = (exSt exTrim [32]).mem a) ∧
        s'.live = (exSt exTrim [32]).live ∧ s'.log = (exSt exTrim [32]).log ∧ s'.calls = (exSt exTrim [32]).calls :=
  C78_trim_buffer isoCfg_ok (exSt_sane exTrim_valid _) (exSt_buf exTrim_valid _) (exSt_other (by decide))

example : contentOf (trimBuffer isoCfg (exSt exTrim [32]) exP ⟨exQ, 1⟩) = .ok [97, 32, 98] := by decide +kernel

/-- C78. Cutting a text at the first occurrence of another: the part before it and the part behind it, and where it does not occur an
invalid view and the whole text. -/
theorem C78_cut_at_first {m : Mem} {v w : View} {h n : List Byte} (hv : ViewOf m v h) (hw : ViewOf m w n) :
    (∃ l r x y, h = l ++ n ++ r ∧ (∀ l' r', h = l' ++ n ++ r' → l.length ≤ l'.length) ∧
      cutAtFirst m v w = .ok (x, some y) ∧ ViewOf m x l ∧ ViewOf m y r ∧
      x.data = v.data ∧ y.data = v.data + (l.length + n.length)) ∨
    ((∀ l r, h ≠ l ++ n ++ r) ∧ cutAtFirst m v w = .ok (.invalid, some v)) := by
  have hmax := hw.max
  rcases C07_find_first hv hw with ⟨i, ⟨⟨l, mid, r, h1, h2, h3⟩, h4⟩, h5, h6⟩ | ⟨h1, h2⟩
  · simp only [List.map_id] at h3
    subst h3 h2 h1
    rw [List.append_assoc] at hv
    obtain ⟨g1, g2, g3⟩ := C15_split_left hv (pos := v.part l.length mid.length) rfl
    obtain ⟨a, b, k1, k2, k3, k4⟩ := C14_split_index g3 (mid.length : Int) (by have : INT_MIN = -2147483648 := rfl; omega) hmax
    rcases k4 with ⟨_, k5, k6⟩ | ⟨k5, _⟩
    · have hl : a.length = mid.length := by simp only [List.length_append] at k5; omega
      obtain ⟨rfl, rfl⟩ := List.append_inj k1 hl.symm
      refine .inl ⟨l, r, _, _, rfl, ?_, ?_, g2, k3, by simp [View.part], by simp only [View.part]; omega⟩
      · intro l' r' e
        exact h4 l'.length ⟨l', mid, r', e, rfl, rfl⟩
      · simp only [cutAtFirst, h6, Res.bind_ok, g1, is_valid_iff.2 g2.ne_zero, if_true, hw.size, k6]
    · omega
  · refine .inr ⟨fun l r e => h1 l.length ⟨l, n, r, e, rfl, rfl⟩, ?_⟩
    simp only [cutAtFirst, h2, Res.bind_ok, (C15_split_invalid v .invalid).1]
    rfl

-- `k=v=w` cut at the first `=`
example : cutAtFirst (memAt 8000 [107, 61, 118, 61, 119]) ⟨8000, 5⟩ ⟨8001, 1⟩ = .ok (⟨8000, 1⟩, some ⟨8002, 3⟩) ∧
    ViewOf (memAt 8000 [107, 61, 118, 61, 119]) ⟨8000, 5⟩ [107, 61, 118, 61, 119] ∧ ViewOf (memAt 8000 [107, 61, 118, 61, 119]) ⟨8001, 1⟩ [61] := by
  have h : ViewOf (memAt 8000 [107, 61, 118, 61, 119]) ⟨8000, 5⟩ [107, 61, 118, 61, 119] :=
    ⟨⟨rfl, by decide, holds_memAt _ _ (by decide) (by decide)⟩, by decide⟩
  exact ⟨by decide +kernel, h, h.part 1 1 (by decide)⟩

/-- C78. Inserting behind the first occurrence of a text in a buffer: the content gets the inserted text there, and a buffer without the
text stays as it is. -/
theorem C78_insert_after_first {cfg : Cfg} (hcfg : cfg.Ok) {s : St} (hs : s.Sane) {p : Addr} {b : Buf} (hb : BufAt s p b)
    {w v : View} {n S : List Byte} (hw : ViewOf s.mem w n) (hv : Source s p b v S)
    (hfit : b.Fits (b.data.length + S.length)) (hh : cfg.Handles b (b.data.length + S.length)) :
    (∃ l r, b.data = l ++ n ++ r ∧ (∀ l' r', b.data = l' ++ n ++ r' → l.length ≤ l'.length) ∧
      Yields s p b (insertAfterFirst cfg s p w v) (l ++ n ++ S ++ r) (b.capFor cfg (b.data.length + S.length))) ∨
    ((∀ l r, b.data ≠ l ++ n ++ r) ∧ insertAfterFirst cfg s p w v = .ok (⟨p + 24, b.data.length⟩, some p, s)) := by
  have hp := hb.pos
  have e : insertAfterFirst cfg s p w v = (do
      let pos ← strview_find_first_strview s.mem ⟨p + 24, b.data.length⟩ w
      strbuf_insert_after_strview cfg s (some p) pos v) := by
    simp only [insertAfterFirst, strbuf_view, deref_some hb.pos, hb.view, Res.bind_ok]
  rcases C07_find_first hb.viewOf hw with ⟨i, ⟨⟨l, mid, r, h1, h2, h3⟩, h4⟩, h5, h6⟩ | ⟨h1, h2⟩
  · simp only [List.map_id] at h3
    subst h3 h2
    have hl := congrArg List.length h1
    simp only [List.length_append] at hl
    refine .inl ⟨l, r, h1, fun l' r' e => h4 l'.length ⟨l', mid, r', e, rfl, rfl⟩, ?_⟩
    rw [e, h6]
    have := C35_insert_after hcfg hs hb hv (dst := View.part ⟨p + 24, b.data.length⟩ l.length mid.length) (k := l.length + mid.length) (by omega)
      (by simp only [View.part]; omega) (by simp only [View.part]; omega) hfit hh
    have e1 : b.data.take (l.length + mid.length) = l ++ mid := by
      rw [h1, ← List.length_append, List.take_left']; rfl
    have e2 : b.data.drop (l.length + mid.length) = r := by
      rw [h1, ← List.length_append, List.drop_left']; rfl
    rw [e1, e2] at this
    exact this
  · refine .inr ⟨fun l r e => h1 l.length ⟨l, n, r, e, rfl, rfl⟩, ?_⟩
    rw [e, h2]
    exact (C35_not_located cfg hb .invalid v).2 (.inl rfl)

-- `==` is inserted behind the first space of `  a b `, into a buffer that has to grow and moves
example : contentOf (insertAfterFirst isoCfg (exSt exTrimDyn [61, 61, 32]) exP ⟨exQ + 2, 1⟩ ⟨exQ, 2⟩) = .ok [32, 61, 61, 32, 97, 32, 98, 32] := by
  decide +kernel

example : exTrimDyn.Valid ∧ exTrimDyn.Fits (exTrimDyn.data.length + [61, 61].length) ∧ isoCfg.Handles exTrimDyn (exTrimDyn.data.length + [61, 61].length) ∧
    Source (exSt exTrimDyn [61, 61, 32]) exP exTrimDyn ⟨exQ, 2⟩ [61, 61] ∧ ViewOf (exSt exTrimDyn [61, 61, 32]).mem ⟨exQ + 2, 1⟩ [32] := by
  have hv : exTrimDyn.Valid := ⟨by decide, by decide, by decide, by decide⟩
  exact ⟨hv, by decide, .inr (.inr (.inl (by decide))), (exSt_elsewhere hv (by decide) 0 2 (by decide)).source,
    ⟨(exSt_elsewhere hv (by decide) 2 1 (by decide)).toDenotes, by decide⟩⟩

theorem takeLines_eq (m : Mem) (k : Nat) : ∀ (v : View) (e : Byte), takeLines m k v e = drain m k v e := by
  induction k with
  | zero => intro v e; rfl
  | succ k ih =>
    intro v e
    simp only [takeLines, drain, ih]
    rfl

theorem receive_congr {place place' : Nat → List Byte → Mem × View} (cs : List (List Byte)) :
    ∀ (buf : List Byte) (e : Byte), (∀ i < cs.length, ∀ l, place i l = place' i l) → receive place cs buf e = receive place' cs buf e := by
  induction cs with
  | nil => intro buf e _; rfl
  | cons c cs ih =>
    intro buf e h
    have ih' := fun b e => ih b e fun i hi => h i (by simp only [List.length_cons]; omega)
    simp only [receive, h cs.length (by simp), ih']

/-- Some place for every text. -/
theorem some_place : ∃ place : Nat → List Byte → Mem × View, ∀ i l, (l.length : Int) ≤ INT_MAX → ViewOf (place i l).1 (place i l).2 l := by
  refine ⟨fun _ l => (memAt 8000 l, ⟨8000, l.length⟩), fun _ l h => ⟨⟨rfl, h, holds_memAt _ _ (by decide) ?_⟩, by simp⟩⟩
  have : litBase = 18446744073709551616 := by decide
  have : INT_MAX = 2147483647 := rfl
  omega

/-- Collecting lines with a buffer is a session of the line reader, the buffer being the place of the text. -/
theorem collect_receive {cfg : Cfg} (hcfg : cfg.Ok) (pieces : List View) (cs : List (List Byte)) :
    ∀ {s : St} (_ : s.Sane) {p : Addr} {b : Buf} (_ : BufAt s p b) (e : Byte) (_ : e = 0 ∨ IsEol e)
      (_ : b.HasRoom cfg (b.data.length + cs.flatten.length)) (_ : List.Forall₂ (Elsewhere s p (storage b.cap)) pieces cs),
    (b.Dynamic ∧ collectLines cfg pieces p e s = .env .alloc) ∨
    ∃ (place : Nat → List Byte → Mem × View) (ls : List (List Byte)) (rem : List Byte) (e' : Byte) (p' : Addr) (s' : St) (cap : Nat),
      (∀ i l, (l.length : Int) ≤ INT_MAX → ViewOf (place i l).1 (place i l).2 l) ∧
      receive place cs b.data e = .ok (ls, rem, e') ∧ collectLines cfg pieces p e s = .ok (ls, p', e', s') ∧
      BufAt s' p' ⟨rem, cap, b.al⟩ ∧ s'.Sane ∧ OnlyBlock s s' p (storage b.cap) p' (storage cap) := by
  induction cs generalizing pieces with
  | nil =>
    intro s hs p b hb e he hroom hP
    obtain ⟨place, hplace⟩ := some_place
    cases hP
    exact .inr ⟨place, [], b.data, e, p, s, b.cap, hplace, rfl, rfl, hb, hs, .refl _ _ _⟩
  | cons c cs ih =>
    intro s hs p b hb e he hroom hP
    cases hP with
    | @cons piece _ pieces _ hpc hP =>
      have hl : (b.data.length + (c :: cs).flatten.length) = b.data.length + c.length + cs.flatten.length := by
        simp only [List.flatten_cons, List.length_append]; omega
      rw [hl] at hroom
      obtain ⟨hf, hh⟩ := hroom.fits hcfg (k := b.data.length + c.length) (by omega)
      rcases C33_append hcfg hs hb hpc.source hf hh with ⟨⟨g1, _⟩, g2⟩ | ⟨p1, s1, g1, g2⟩
      · refine .inl ⟨?_, ?_⟩
        · by_contra hd
          exact g1 (by simp only [Buf.capFor, if_neg (fun h => hd h.1 : ¬ (b.Dynamic ∧ _))])
        · simp only [collectLines, g2]; rfl
      · have hb1 := g2.buf
        have hdl := hb1.len
        simp only [List.length_append] at hdl
        obtain ⟨v, e1, d1, d2, ⟨d3, d4⟩, d5, -⟩ := drain_spec hb1.viewOf e he ((b.data ++ c).length + 2) (by simp only; omega)
        generalize hrem : (idealRun [] 0 (skipPending e (b.data ++ c))).2.1 = rem at d1 d2
        generalize (idealRun [] 0 (skipPending e (b.data ++ c))).1 = ls1 at d1
        simp only at d1 d2 d3 d4
        rw [d2.size] at d4
        have hsrc : Source s1 p1 ⟨b.data ++ c, b.capFor cfg (b.data.length + c.length), b.al⟩ v rem :=
          ⟨d2.toDenotes, .inr (.inr (.inr ⟨d3, by simp only; omega⟩))⟩
        have hrl : rem.length ≤ b.data.length + c.length := by simp only [List.length_append] at d4; omega
        have hy := C36_assign hcfg g2.sane hb1 hsrc (by have := hb1.pos; omega) (.inl (by simp only; omega)) (.inr (.inl (by simp only; omega)))
        rw [capFor_same (b := ⟨b.data ++ c, b.capFor cfg (b.data.length + c.length), b.al⟩) (n := rem.length) (by simp only; omega)] at hy
        rcases hy with ⟨⟨h, _⟩, _⟩ | ⟨p2, s2, a1, a2⟩
        · exact absurd rfl h
        have ho := g2.only.trans a2.only
        have hr2 : Buf.HasRoom ⟨rem, b.capFor cfg (b.data.length + c.length), b.al⟩ cfg (rem.length + cs.flatten.length) := by
          rcases hroom.after hcfg rem (b.data.length + c.length) with h | ⟨h, h'⟩
          · exact .inl (by omega)
          · exact .inr ⟨h, by omega⟩
        have hP2 : List.Forall₂ (Elsewhere s2 p2 (storage (b.capFor cfg (b.data.length + c.length)))) pieces cs :=
          hP.imp fun v l h => h.after ho (storage_pos _) a2.buf.top
        have ec : collectLines cfg (piece :: pieces) p e s = (do
            let (ls', buf, eol, s) ← collectLines cfg pieces p2 e1 s2
            .ok (ls1 ++ ls', buf, eol, s)) := by
          simp only [collectLines, g1, Res.bind_ok, takeLines_eq, Int.toNat_natCast, d1, a1]
        rcases ih pieces a2.sane a2.buf e1 d5 hr2 hP2 with ⟨i1, i2⟩ | ⟨place, ls, rem', e', p', s', cap, i1, i2, i3, i4, i5, i6⟩
        · exact .inl ⟨i1, by rw [ec, i2]; rfl⟩
        · refine .inr ⟨fun i l => if i = cs.length ∧ l = b.data ++ c then (s1.mem, ⟨p1 + 24, (b.data ++ c).length⟩) else place i l,
            ls1 ++ ls, rem', e', p', s', cap, ?_, ?_, ?_, i4, i5, ho.trans i6⟩
          · intro i l hl
            by_cases h : i = cs.length ∧ l = b.data ++ c
            · simp only [if_pos h]
              rw [h.2]; exact hb1.viewOf
            · simp only [if_neg h]; exact i1 i l hl
          · have hcg := receive_congr (place' := place) (place := fun i l => if i = cs.length ∧ l = b.data ++ c then
              (s1.mem, (⟨p1 + 24, (b.data ++ c).length⟩ : View)) else place i l) cs rem e1 (fun i hi l => if_neg (fun h => by omega))
            simp only [receive, and_self, if_true, Int.toNat_natCast, d1, Res.bind_ok, d2.toDenotes.readBytes]
            rw [hcg, i2]; rfl
          · rw [ec, i3]; rfl

/-- C78. Collecting lines from received pieces with a buffer (docs/strview-api.md, `strview_split_line`): however the text is cut into
pieces, the lines that come out are lines of the text, in their order, with every line that is not empty, and the buffer holds what
follows the last line ending. Every line comes out, unless a piece is a single end-of-line character between two that differ from it
(`NoLoneEol`, see C18). -/
theorem C78_collect_lines {cfg : Cfg} (hcfg : cfg.Ok) {s : St} (hs : s.Sane) {p : Addr} {cap : Nat} {al : Alloc} (hb : BufAt s p ⟨[], cap, al⟩)
    {pieces : List View} {cs : List (List Byte)} (hP : List.Forall₂ (Elsewhere s p (storage cap)) pieces cs)
    (hroom : Buf.HasRoom ⟨[], cap, al⟩ cfg cs.flatten.length) :
    (al.fn ≠ 0 ∧ collectLines cfg pieces p 0 s = .env .alloc) ∨
    ∃ ls all rem e p' s' cap', collectLines cfg pieces p 0 s = .ok (ls, p', e, s') ∧ BufAt s' p' ⟨rem, cap', al⟩ ∧
      OnlyBlock s s' p (storage cap) p' (storage cap') ∧ Lines cs.flatten all rem ∧ ls.Sublist all ∧
      ls.filter (· ≠ []) = all.filter (· ≠ []) ∧ (NoLoneEol cs → ls = all) := by
  have hlen : (cs.flatten.length : Int) ≤ INT_MAX := by
    have h1 := hb.cap
    have h2 := hcfg.pos
    simp only at h1
    rcases hroom with h | ⟨_, h⟩
    · simp only at h; omega
    · omega
  rcases collect_receive hcfg pieces cs hs hb 0 (.inl rfl) (by simpa using hroom) hP with h |
    ⟨place, ls, rem, e, p', s', cap', h1, h2, h3, h4, h5, h6⟩
  · exact .inl h
  · obtain ⟨ls1, rem1, e1, all, k1, k2, k3, k4⟩ := C18_any_fragmentation_partial place h1 cs hlen
    rw [h2] at k1
    cases k1
    refine .inr ⟨ls, all, rem, e, p', s', cap', h3, h4, h6, k2, k3, k4, fun hn => ?_⟩
    obtain ⟨ls2, rem2, e2, k5, k6⟩ := C18_fragmentation_partial place h1 cs hlen hn
    rw [h2] at k5
    cases k5
    exact (k6.unique k2).1

/-- A dynamic buffer that is empty. -/
def exEmpty : Buf := ⟨[], 2, ⟨1, 2⟩⟩

theorem exEmpty_valid : exEmpty.Valid := ⟨by decide, by decide, by decide, by decide⟩

/-- What a session returns and leaves in the buffer, for the examples. -/
def sessionOf (r : Res (List (List Byte) × Addr × Byte × St)) : Res (List (List Byte) × List Byte) :=
  match r with
  | .ok (ls, p, _, s) => match strbuf_view s.mem (some p) with
    | .ok v => do
      let l ← readBytes s.mem v.data v.size.toNat
      .ok (ls, l)
    | _ => .fuel
  | _ => .fuel

-- `ab\r\nc`, `d\n`, `e` received in three pieces into a buffer that grows
example : sessionOf (collectLines isoCfg [⟨exQ, 5⟩, ⟨exQ + 5, 2⟩, ⟨exQ + 7, 1⟩] exP 0 (exSt exEmpty [97, 98, 13, 10, 99, 100, 10, 101])) =
    .ok ([[97, 98], [99, 100]], [101]) := by decide +kernel

example : List.Forall₂ (Elsewhere (exSt exEmpty [97, 98, 13, 10, 99, 100, 10, 101]) exP (storage exEmpty.cap))
      [⟨exQ, 5⟩, ⟨exQ + 5, 2⟩, ⟨exQ + 7, 1⟩] [[97, 98, 13, 10, 99], [100, 10], [101]] ∧
    exEmpty.HasRoom isoCfg ([[97, 98, 13, 10, 99], [100, 10], [101]] : List (List Byte)).flatten.length ∧
    BufAt (exSt exEmpty [97, 98, 13, 10, 99, 100, 10, 101]) exP exEmpty ∧ (exSt exEmpty [97, 98, 13, 10, 99, 100, 10, 101]).Sane := by
  refine ⟨.cons ?_ (.cons ?_ (.cons ?_ .nil)), .inr ⟨by decide, by decide⟩, exSt_buf exEmpty_valid _, exSt_sane exEmpty_valid _⟩
  · exact exSt_elsewhere exEmpty_valid (by decide) 0 5 (by decide)
  · exact exSt_elsewhere exEmpty_valid (by decide) 5 2 (by decide)
  · exact exSt_elsewhere exEmpty_valid (by decide) 7 1 (by decide)

/-- `%d,` with its argument. -/
def numberItems (x : Int) : List FmtItem := [.conv ⟨[], none, none, .none, 100, .dec x⟩, .lit 44]

theorem numberItems_output (x : Int) : formatOutput (numberItems x) = printSigned x ++ [44] := by
  simp only [numberItems, formatOutput, formatOutputFrom, FmtItem.output, Conv.output, Conv.field, Conv.left, Conv.minWidth, Conv.decDigits,
    Conv.plusSign, List.nil_append, printSigned]
  by_cases h : x < 0 <;> simp [h]

theorem numberItems_apart {s : St} {p fmt : Addr} {n : Nat} {x : Int} (hx : -(2 ^ 31) ≤ x ∧ x < 2 ^ 31)
    (h : Elsewhere s p n ⟨fmt, 4⟩ [37, 100, 44, 0]) : FormatApart s.mem p n fmt (numberItems x) := by
  intro m' hm
  have e : formatText (numberItems x) ++ [0] = [37, 100, 44, 0] := rfl
  refine ⟨?_, by change 3 < 2 ^ 64; decide, ⟨by simp [Value.HasLetter], by simp, by simp, hx⟩, ⟨by decide, by decide, by decide⟩, trivial⟩
  rw [e]
  have ha := h.apart
  simp only [List.length_cons, List.length_nil, reduceCtorEq, false_or] at ha
  have hh := h.holds
  intro i hi
  have h1 := hh i hi
  simp only [List.length_cons, List.length_nil] at hi
  rw [← h1]
  simp only [rd] at h1 ⊢
  split
  · rfl
  · rename_i hpos
    simp only [if_neg hpos] at h1
    split
    · rfl
    · rename_i hlit
      simp only [if_neg hlit] at h1
      exact hm _ (by simp only [InRange]; omega) (by rw [h1]; rfl)

/-- C78. Writing a list of numbers with `strbuf_append_prnf(&buf, "%d,", x)`: the buffer gets each in decimal with a comma behind it. -/
theorem C78_write_numbers {cfg : Cfg} (hcfg : cfg.Ok) {fmt : Addr} (xs : List Int) :
    ∀ {s : St} (_ : s.Sane) {p : Addr} {b : Buf} (_ : BufAt s p b) (_ : ∀ x ∈ xs, -(2 ^ 31) ≤ x ∧ x < 2 ^ 31)
      (_ : Elsewhere s p (storage b.cap) ⟨fmt, 4⟩ [37, 100, 44, 0]) (_ : b.HasRoom cfg (b.data.length + (listText xs).length)),
    (b.Dynamic ∧ writeNumbers cfg fmt xs p s = .env .alloc) ∨
    ∃ p' s' cap, writeNumbers cfg fmt xs p s = .ok (p', s') ∧ BufAt s' p' ⟨b.data ++ listText xs, cap, b.al⟩ ∧ s'.Sane ∧
      OnlyBlock s s' p (storage b.cap) p' (storage cap) := by
  induction xs with
  | nil =>
    intro s hs p b hb _ _ _
    exact .inr ⟨p, s, b.cap, rfl, by simpa [listText] using hb, hs, .refl _ _ _⟩
  | cons x xs ih =>
    intro s hs p b hb hx hfmt hroom
    have hlt : (listText (x :: xs)) = printSigned x ++ [44] ++ listText xs := by simp [listText]
    have hl := congrArg List.length hlt
    rw [List.length_append (bs := listText xs)] at hl
    have hout := numberItems_output x
    have hmax : ((b.data.length + (listText (x :: xs)).length : Nat) : Int) ≤ INT_MAX := by
      have h1 := hb.cap
      have h2 := hcfg.pos
      rcases hroom with h | ⟨_, h⟩ <;> omega
    obtain ⟨hf, hh⟩ := hroom.fits hcfg (k := b.data.length + (formatOutput (numberItems x)).length) (by rw [hout]; omega)
    obtain ⟨cap, hc, hy⟩ := C68_append_prnf hcfg hs hb [] (numberItems_apart (hx x (by simp)) hfmt) (by rw [hout]; omega) hh
    have hcap := hc hf
    subst hcap
    rw [if_pos hf, hout] at hy
    have ec : writeNumbers cfg fmt (x :: xs) p s = (do
        match ← strbuf_append_vprnf cfg s (some p) fmt (formatArgs (numberItems x) ++ []) with
        | (_, some buf, s) => writeNumbers cfg fmt xs buf s
        | _ => .env .other) := rfl
    rw [ec]
    rcases hy with ⟨h1, h2⟩ | ⟨p1, s1, h1, h2⟩
    · exact .inl ⟨h1, by rw [h2]; rfl⟩
    · have hr1 := hroom.after hcfg (b.data ++ (printSigned x ++ [44])) (b.data.length + (printSigned x ++ [44]).length)
      rw [h1]
      simp only [Res.bind_ok]
      rcases ih h2.sane h2.buf (fun y hy => hx y (by simp [hy])) (hfmt.after h2.only (storage_pos _) h2.buf.top)
          (by rw [List.length_append (as := b.data)]; rw [hl] at hr1; convert hr1 using 1; omega) with h | ⟨p', s', cap, i1, i2, i3, i4⟩
      · exact .inl h
      · exact .inr ⟨p', s', cap, i1, by rw [hlt]; simpa using i2, i3, h2.only.trans i4⟩

theorem printSigned_no_comma (x : Int) : ∀ b ∈ printSigned x, b ∉ ([44] : List Byte) := by
  have h : ∀ b ∈ printBytes 10 x.natAbs, b ≠ 44 := by
    intro b hb e
    obtain ⟨d, h1, h2⟩ := (printBytes_numeral 10 (by decide) (by decide) x.natAbs).digits b hb
    subst e
    simp [digitVal] at h1
  intro b hb
  simp only [List.mem_singleton]
  unfold printSigned at hb
  split at hb
  · rcases List.mem_cons.1 hb with rfl | hb
    · decide
    · exact h b hb
  · exact h b hb

theorem listText_tokens (xs : List Int) : Tokens [44] (listText xs) (xs.map printSigned ++ [[]]) := by
  induction xs with
  | nil => exact .last [] (by simp)
  | cons x xs ih =>
    have e : listText (x :: xs) = printSigned x ++ 44 :: listText xs := by simp [listText]
    rw [e]
    exact .more _ _ _ _ (printSigned_no_comma x) (by simp) ih

theorem read_numbers {m : Mem} {comma : Addr} (hc : CString m comma [44]) (xs : List Int) :
    ∀ {v : View} {l : List Byte} (_ : ViewOf m v l) (_ : Tokens [44] l (xs.map printSigned ++ [[]]))
      (_ : ∀ x ∈ xs, -(2 ^ 31) ≤ x ∧ x < 2 ^ 31) (k : Nat) (_ : xs.length < k),
    readNumbers m comma k v = .ok (xs.map fun x => (0, some x)) := by
  induction xs with
  | nil =>
    intro v l hv ht _ k hk
    obtain ⟨t, ts, u, s, h1, h2, h3, h4⟩ := split_step hv hc ht
    simp only [List.map_nil, List.nil_append, List.cons.injEq] at h1
    obtain ⟨k, rfl⟩ := Nat.exists_eq_succ_of_ne_zero (by omega : k ≠ 0)
    rcases h4 with ⟨_, rfl⟩ | ⟨rest, ht, _⟩
    · simp only [readNumbers, strview_split_first_delim, h2, Res.bind_ok]; rfl
    · rw [← h1.2] at ht; cases ht
  | cons x xs ih =>
    intro v l hv ht hx k hk
    obtain ⟨t, ts, u, s, h1, h2, h3, h4⟩ := split_step hv hc ht
    simp only [List.map_cons, List.cons_append, List.cons.injEq] at h1
    obtain ⟨rfl, rfl⟩ := h1
    obtain ⟨k, rfl⟩ := Nat.exists_eq_succ_of_ne_zero (by omega : k ≠ 0)
    rcases h4 with ⟨h, _⟩ | ⟨rest, ht, h5⟩
    · simp at h
    · have hx1 := hx x (by simp)
      have hval := C28_signed_decimal (m := m) (v := u) (rest := []) (o := 0) (n := x) .int 0
        (by simp only [STy.InRange, STy.bits]; norm_num at hx1 ⊢; omega) (by decide) (by decide) (by decide) (by simp [EndsDecimal]) (by simpa using h3)
      simp only [readNumbers, strview_split_first_delim, h2, Res.bind_ok, is_valid_iff.2 h5.ne_zero, if_true, hval,
        ih h5 ht (fun y hy => hx y (by simp [hy])) k (by simp only [List.length_cons] at hk; omega), List.map_cons]

/-- C78. Reading such a text with `strview_split_first_delim` and `strnum_value` gives the numbers, each without error. -/
theorem C78_read_numbers {m : Mem} {comma : Addr} (hc : CString m comma [44]) (xs : List Int) {v : View} (hv : ViewOf m v (listText xs))
    (hx : ∀ x ∈ xs, -(2 ^ 31) ≤ x ∧ x < 2 ^ 31) (k : Nat) (hk : xs.length < k) :
    readNumbers m comma k v = .ok (xs.map fun x => (0, some x)) :=
  read_numbers hc xs hv (listText_tokens xs) hx k hk

/-- C78. A list of numbers that is written into an empty buffer and read back from it is the same list: `writeNumbers`, then
`src = strbuf_view(&buf)` and `readNumbers`. -/
theorem C78_numbers_round_trip {cfg : Cfg} (hcfg : cfg.Ok) {fmt comma : Addr} (xs : List Int) {s : St} (hs : s.Sane) {p : Addr} {cap : Nat} {al : Alloc}
    (hb : BufAt s p ⟨[], cap, al⟩) (hx : ∀ x ∈ xs, -(2 ^ 31) ≤ x ∧ x < 2 ^ 31) (hfmt : Elsewhere s p (storage cap) ⟨fmt, 4⟩ [37, 100, 44, 0])
    (hcomma : Elsewhere s p (storage cap) ⟨comma, 2⟩ [44, 0]) (hroom : Buf.HasRoom ⟨[], cap, al⟩ cfg (listText xs).length) :
    (al.fn ≠ 0 ∧ writeNumbers cfg fmt xs p s = .env .alloc) ∨
    ∃ p' s' v, writeNumbers cfg fmt xs p s = .ok (p', s') ∧ strbuf_view s'.mem (some p') = .ok v ∧
      ∀ k, xs.length < k → readNumbers s'.mem comma k v = .ok (xs.map fun x => (0, some x)) := by
  rcases C78_write_numbers hcfg xs hs hb hx hfmt (by simpa using hroom) with h | ⟨p', s', cap', h1, h2, h3, h4⟩
  · exact .inl h
  · simp only [List.nil_append] at h2
    have hc := hcomma.after h4 (storage_pos _) h2.top
    refine .inr ⟨p', s', ⟨p' + 24, (listText xs).length⟩, h1, by simp only [strbuf_view, deref_some h2.pos, h2.view], fun k hk => ?_⟩
    have h0 := hc.holds 0 (by simp)
    refine C78_read_numbers ⟨?_, by decide, by decide, hc.holds⟩ xs h2.viewOf hx k hk
    by_contra hn
    simp only [rd] at h0
    rw [if_pos (by simpa using hn)] at h0
    cases h0

-- -12, 0 and 2147483647 through a buffer that has to grow, with `%d,` at 2^33 and its tail used as the delimiter
example : ∃ p' s' v, writeNumbers isoCfg exQ [-12, 0, 2147483647] exP (exSt exEmpty [37, 100, 44, 0]) = .ok (p', s') ∧
    strbuf_view s'.mem (some p') = .ok v ∧
    readNumbers s'.mem (exQ + 2) 4 v = .ok [(0, some (-12)), (0, some 0), (0, some 2147483647)] := by
  rcases C78_numbers_round_trip (comma := exQ + 2) isoCfg_ok [-12, 0, 2147483647] (exSt_sane exEmpty_valid [37, 100, 44, 0]) (exSt_buf exEmpty_valid _) (by simp)
      (exSt_elsewhere exEmpty_valid (by decide) 0 4 (by decide)) (exSt_elsewhere exEmpty_valid (by decide) 2 2 (by decide))
      (.inr ⟨by decide, by decide +kernel⟩) with ⟨_, h⟩ | ⟨p', s', v, h1, h2, h3⟩
  · have h' : (match writeNumbers isoCfg exQ [-12, 0, 2147483647] exP (exSt exEmpty [37, 100, 44, 0]) with | .env _ => true | _ => false) = false := by
      decide +kernel
    rw [show writeNumbers isoCfg exQ [-12, 0, 2147483647] exP (exSt exEmpty [37, 100, 44, 0]) = _ from h] at h'
    cases h'
  · exact ⟨p', s', v, h1, h2, h3 4 (by decide)⟩

end CStr
