import Verif.Spec.Io
import Verif.Lemmas.BufText
import Verif.Lemmas.BufHist
import Verif.Lemmas.IntText
namespace CStr

theorem readBytes_take {m : Mem} {a : Addr} {l : List Byte} (h : Holds m a l) (k : Nat) : readBytes m a (min k l.length) = .ok (l.take k) := by
  have := readBytes_eq (h.take k)
  rwa [List.length_take] at this

theorem os_write_eq {m : Mem} {a : Addr} {l : List Byte} (h : Holds m a l) (j : Nat) (out : List Byte) :
    os_write (some j) m a l.length out = .ok ((min j l.length : Nat), out ++ l.take j) := by
  simp only [os_write]
  rw [if_neg (by omega), Int.toNat_natCast, readBytes_take h, Res.bind_ok, List.length_take]

/-- Storing bytes after the content of a buffer and then increasing its size, as `strbuf_append_read` does. -/
theorem read_yields {cfg : Cfg} {s : St} (hs : s.Sane) {p : Addr} {b : Buf} (hb : BufAt s p b) {l : List Byte} {inp : List Byte} {j : Nat}
    (hl : l = inp.take (min j (b.cap - b.data.length))) :
    ∃ s', strbuf_append_read cfg s (some p) (some j) inp = .ok (l.length, s', inp.drop l.length) ∧ Result s p b (b.data ++ l) b.cap p s' := by
  have hlen := hb.len
  have hcapm := hb.cap
  have hll : b.data.length + l.length ≤ b.cap := by rw [hl, List.length_take]; omega
  obtain ⟨J, hJ, hraw⟩ := hb.raw
  have hsplit : ∃ J1 J2, 0 :: J = J1 ++ J2 ∧ J1.length = l.length :=
    ⟨(0 :: J).take l.length, (0 :: J).drop l.length, (List.take_append_drop _ _).symm, by
      rw [List.length_take, List.length_cons]; omega⟩
  obtain ⟨J1, J2, hJ12, hJ1⟩ := hsplit
  have hJlen := congrArg List.length hJ12
  simp only [List.length_cons, List.length_append] at hJlen
  rw [hJ12] at hraw
  have hraw' : Raw s.mem p b.data.length b.cap b.al (b.data ++ J1 ++ J2) := by simpa using hraw
  obtain ⟨wr, r1, w1⟩ := hraw'.write (Y' := l) hJ1.symm
  have hsp : addInt cfg b.cap (-(b.data.length : Int)) = .ok ((b.cap - b.data.length : Nat) : Int) :=
    addInt_nat cfg (by omega) (by omega)
  have hos : os_read (some j) s.mem (cstrOf p + b.data.length) ((b.cap - b.data.length : Nat) : Int) inp =
      .ok ((l.length : Int), put s.mem (cstrOf p + b.data.length) l, inp.drop l.length) := by
    simp only [os_read]
    rw [if_neg (by omega), Int.toNat_natCast, ← hl, writeBytes_eq wr, Res.bind_ok]
  rw [strbuf_append_read, deref_some hb.pos]
  simp only
  rw [hb.getSize, Res.bind_ok, hb.getCap, Res.bind_ok, hsp, Res.bind_ok, hos, Res.bind_ok]
  simp only
  by_cases h0 : l = []
  · subst h0
    rw [if_neg (by simp), put_nil, List.append_nil]
    refine ⟨_, rfl, (ReszOk.refl hs hb).toResult⟩
  · have hpos : 0 < l.length := List.length_pos_iff.2 h0
    rw [if_pos (by omega)]
    obtain ⟨y, Z, hyz⟩ : ∃ y Z, J2 = y :: Z := by
      cases J2 with
      | nil => simp only [List.length_nil] at hJlen; omega
      | cons y Z => exact ⟨y, Z, rfl⟩
    subst hyz
    obtain ⟨m2, e2, r2, w2⟩ := r1.setSize (v := b.data.length + l.length) (by omega)
    obtain ⟨m3, e3, r3, w3⟩ := r2.store 0
    have elen : (b.data ++ l).length = b.data.length + l.length := List.length_append
    rw [elen] at e3
    rw [r1.getSize, Res.bind_ok, addInt_nat cfg (n := b.data.length + l.length) (by omega) (by omega), Res.bind_ok,
      e2, Res.bind_ok, r2.getSize, Res.bind_ok, e3, Res.bind_ok]
    have ew1 : 24 + (b.data ++ J1 ++ y :: Z).length = storage b.cap := by
      simp only [List.length_append, List.length_cons, storage] at hJlen ⊢; omega
    have ew2 : 24 + (b.data ++ l ++ y :: Z).length = storage b.cap := by
      simp only [List.length_append, List.length_cons, storage] at hJlen ⊢; omega
    rw [ew1] at w1
    rw [ew2] at w2 w3
    have hres := (ReszOk.refl hs hb).result (data := b.data ++ l) (J := Z) (by rw [elen]; exact r3)
      (by simp only [List.length_cons] at hJlen; rw [elen]; omega) ((w1.trans w2).trans w3)
    exact ⟨_, rfl, hres⟩

end CStr
