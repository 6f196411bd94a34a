import Verif.Lemmas.BufCat
import Verif.Lemmas.Examples
/-! Concrete states used by the non-vacuity examples about buffers. -/
namespace CStr

/-- The bytes of a buffer: header, content, terminator, unused capacity. -/
def bufBytes (b : Buf) : List Byte :=
  hdrBytes b.data.length b.cap b.al ++ b.data ++ List.replicate (b.cap - b.data.length + 1) 0

theorem bufBytes_length {b : Buf} (h : b.data.length ≤ b.cap) : (bufBytes b).length = storage b.cap := by
  simp only [bufBytes, List.length_append, hdrBytes_length, List.length_replicate, storage]; omega

/-- Address of the buffer in the example states. -/
def exP : Addr := 4096

/-- Address of other data in the example states. -/
def exQ : Addr := 8589934592

/-- A state with the buffer `b` at 4096 and the bytes `l` at 2^33. The allocator answers 2^40, 2^40 + 2^36, ... -/
def exSt (b : Buf) (l : List Byte) : St where
  mem := fun a => if a < exQ then memAt exP (bufBytes b) a else memAt exQ l a
  live := fun q => if b.Dynamic ∧ q = exP then some ⟨storage b.cap, b.al⟩ else none
  picks := fun i => ⟨1099511627776 + 68719476736 * i, fun _ => 0xAA⟩
  calls := 0
  log := []

theorem memAt_isSome {a : Addr} {l : List Byte} {i : Nat} (h : i < l.length) : (memAt a l (a + i)).isSome := by
  simp only [memAt]
  rw [if_pos (by omega), show (a + (i : Int) - a).toNat = i by omega, List.getElem?_eq_getElem h]; rfl

/-- A buffer value that can be represented. -/
structure Buf.Valid (b : Buf) : Prop where
  len : b.data.length ≤ b.cap
  cap : (b.cap : Int) ≤ INT_MAX
  app : b.al.app < 2 ^ 64
  fn : b.al.fn < 2 ^ 64

theorem exSt_low {b : Buf} {l : List Byte} (hb : b.Valid) {i : Nat} (hi : i < storage b.cap) :
    (exSt b l).mem (exP + i) = memAt exP (bufBytes b) (exP + i) := by
  have h2 := hb.cap
  simp only [storage, INT_MAX] at hi h2
  simp only [exSt]
  rw [if_pos (by simp only [exP, exQ]; omega)]

theorem exSt_buf {b : Buf} (hb : b.Valid) (l : List Byte) : BufAt (exSt b l) exP b := by
  have h1 := hb.len; have h2 := hb.cap
  simp only [INT_MAX] at h2
  have hlen := bufBytes_length h1
  have htop : exP + storage b.cap ≤ litBase := by simp only [storage, exP, litBase]; omega
  refine ⟨by simp only [exP]; omega, by decide, htop, h1, hb.cap, hb.app, hb.fn, ?_, ?_, ?_⟩
  · have hh : Holds (memAt exP (bufBytes b)) exP (bufBytes b) := holds_memAt _ _ (by decide) (by rw [hlen]; exact htop)
    have hh' : Holds (exSt b l).mem exP (bufBytes b) := by
      apply hh.congr
      intro i hi
      rw [exSt_low hb (by rw [← hlen]; exact hi)]
    rw [bufBytes, List.replicate_succ, show ∀ X : List Byte, (0 : Byte) :: X = [0] ++ X from fun _ => rfl,
      ← List.append_assoc, Holds.append_iff] at hh'
    exact hh'.1
  · intro i hi
    rw [exSt_low hb hi]
    exact memAt_isSome (by rw [hlen]; exact hi)
  · intro hd
    simp only [exSt]
    exact if_pos ⟨hd, trivial⟩

theorem exSt_sane {b : Buf} (hb : b.Valid) (l : List Byte) : (exSt b l).Sane := by
  have hx := exSt_buf hb l
  refine ⟨⟨?_, ?_⟩, ?_⟩
  · intro q c hq
    have hq' : (if b.Dynamic ∧ q = exP then some ⟨storage b.cap, b.al⟩ else none : Option LiveBlk) = some c := hq
    split at hq'
    · next h => cases hq'; obtain ⟨_, rfl⟩ := h; exact ⟨hx.pos, by simp only [storage]; omega, hx.top, hx.mapped⟩
    · cases hq'
  · intro q c q' c' hq hq' hne
    have h1 : (if b.Dynamic ∧ q = exP then some ⟨storage b.cap, b.al⟩ else none : Option LiveBlk) = some c := hq
    have h2 : (if b.Dynamic ∧ q' = exP then some ⟨storage b.cap, b.al⟩ else none : Option LiveBlk) = some c' := hq'
    split at h1
    · next h =>
      split at h2
      · next h' => exact absurd (h.2.trans h'.2.symm) hne
      · cases h2
    · cases h1
  · intro i
    simp only [exSt]; omega

/-- The other data. -/
theorem exSt_other {b : Buf} {l : List Byte} (hl : (l.length : Int) ≤ INT_MAX) :
    Denotes (exSt b l).mem ⟨exQ, l.length⟩ l := by
  have hl' := hl
  simp only [INT_MAX] at hl'
  refine ⟨rfl, hl, ?_⟩
  apply (holds_memAt exQ l (by decide) (by simp only [exQ, litBase]; omega)).congr
  intro i hi
  simp only [exSt]
  rw [if_neg (by omega)]

theorem exSt_source {b : Buf} (hb : b.Valid) {l : List Byte} (hl : (l.length : Int) ≤ INT_MAX) :
    Source (exSt b l) exP b ⟨exQ, l.length⟩ l :=
  ⟨exSt_other hl, by
    have h2 := hb.cap
    simp only [INT_MAX] at h2
    right; right; left
    simp only [storage, exP, exQ]; omega⟩

/-- Any part of the content of a buffer is a legitimate source. -/
theorem BufAt.partSource {s : St} {p : Addr} {b : Buf} (h : BufAt s p b) (i n : Nat) (hin : i + n ≤ b.data.length) :
    Source s p b ⟨p + 24 + i, n⟩ ((b.data.drop i).take n) := by
  have hlen : ((b.data.drop i).take n).length = n := by
    rw [List.length_take, List.length_drop]; omega
  have hd := (Holds.append_iff.1 (Holds.append_iff.1 h.holds).1).2
  rw [hdrBytes_length] at hd
  refine ⟨⟨by rw [hlen], ?_, ?_⟩, ?_⟩
  · have := h.sizeMax
    rw [hlen]; omega
  · exact (hd.drop i (by omega)).take n
  · right; right; right
    rw [hlen]; simp only; omega

/-- Whether a run ended normally. -/
def Res.isOk {α : Type} : Res α → Bool
  | .ok _ => true
  | _ => false

end CStr
