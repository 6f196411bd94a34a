import Verif.Props.BufSize
/-! Properties C40, C45, C46, C47: stripping, callbacks and formatted output. -/
namespace CStr

/-- C40, for characters outside the buffer. `strbuf_strip` removes every byte that occurs in `chars` and keeps the others in order, in
place. Missing for the full property: characters given by a view of the buffer itself, for which the code does something else
(`C40_strip_self_deviation`, and exactly `C40_strip_own`). -/
theorem C40_strip_partial {cfg : Cfg} {s : St} (hs : s.Sane) {p : Addr} {b : Buf} (hb : BufAt s p b)
    {v : View} {chars : List Byte} (hv : ViewOf s.mem v chars)
    (hout : chars = [] ∨ v.data + chars.length ≤ p ∨ p + storage b.cap ≤ v.data) :
    Yields s p b (strbuf_strip_strview cfg s (some p) v) (b.data.filter (· ∉ chars)) b.cap :=
  strip_yields hs hb hv hout

/-- C40. The same for a C string. -/
theorem C40_strip_cstr_partial {cfg : Cfg} {s : St} (hs : s.Sane) {p : Addr} {b : Buf} (hb : BufAt s p b)
    {a : Addr} {chars : List Byte} (ha : CString s.mem a chars) (hout : a + chars.length ≤ p ∨ p + storage b.cap ≤ a) :
    Yields s p b (strbuf_strip_cstr cfg s (some p) a) (b.data.filter (· ∉ chars)) b.cap := by
  simp only [strbuf_strip_cstr, cstr_eq ha, Res.bind_ok]
  exact strip_yields hs hb ha.viewOf (.inr hout)

/-- C40. An invalid view removes nothing. -/
theorem C40_strip_invalid {cfg : Cfg} {s : St} (hs : s.Sane) {p : Addr} {b : Buf} (hb : BufAt s p b)
    {v : View} (hv : v.data = 0) :
    Yields s p b (strbuf_strip_strview cfg s (some p) v) b.data b.cap :=
  strip_invalid hs hb hv

-- strip `l` and `h` from `hello`
example : Yields (exSt exF [108, 104]) exP exF (strbuf_strip_strview isoCfg (exSt exF [108, 104]) (some exP) ⟨exQ, 2⟩) [101, 111] 8 :=
  C40_strip_partial (exSt_sane exF_valid _) (exSt_buf exF_valid _)
    ⟨exSt_other (l := [108, 104]) (by decide), by decide⟩ (.inr (.inr (by decide)))

/-- The content of the buffer after a run. -/
def contentAfter (r : BufRes) : Option (List Byte) :=
  match r with
  | .ok (_, some p, s) =>
    match (do
      let n ← getSize s.mem p
      readBytes s.mem (cstrOf p) n.toNat : Res (List Byte)) with
    | .ok l => some l
    | _ => none
  | _ => none

/-- C40. Deviation: docs/strbuf-api.md line 134 says that all operations but `strbuf_cat` can source data from the destination. But
`strbuf_strip` moves the characters it is looking for: stripping `hello` of its own first character, the view `h`, leaves nothing instead
of `ello`. -/
theorem C40_strip_self_deviation :
    ∃ (s : St) (p : Addr) (b : Buf) (v : View) (chars : List Byte), s.Sane ∧ BufAt s p b ∧ Source s p b v chars ∧ ViewOf s.mem v chars ∧
      b.data.filter (· ∉ chars) = [101, 108, 108, 111] ∧
      contentAfter (strbuf_strip_strview isoCfg s (some p) v) = some [] := by
  have hsrc := (exSt_buf exF_valid []).partSource 0 1 (by decide)
  exact ⟨exSt exF [], exP, exF, ⟨exP + 24 + (0 : Nat), (1 : Nat)⟩, [104], exSt_sane exF_valid _, exSt_buf exF_valid _,
    hsrc, ⟨hsrc.toDenotes, by decide⟩, by decide, by decide +kernel⟩

theorem stripOwn_sublist (D : List Byte) (i n : Nat) : ∀ (R : List Byte) (z : Nat), (stripOwn D i n z R).Sublist R := by
  intro R
  induction R with
  | nil => intro z; exact List.Sublist.refl _
  | cons c R ih =>
    intro z
    rw [stripOwn]
    split
    · exact (ih (z + 1)).cons c
    · exact (ih z).cons_cons c

theorem ownWindow_head {D : List Byte} {i n k z : Nat} {c : Byte} {R : List Byte} (hn : 0 < n) (hR : D.drop (k + z) = c :: R) (hk : k = i) : c ∈ ownWindow D i n z := by
  subst hk
  have hlt : k + z < D.length := by
    rcases Nat.lt_or_ge (k + z) D.length with h | h
    · exact h
    · rw [List.drop_of_length_le h] at hR; cases hR
  rw [ownWindow, List.drop_append_of_le_length (by omega), hR]
  obtain ⟨n', rfl⟩ : ∃ n', n = n' + 1 := ⟨n - 1, by omega⟩
  simp

theorem drop_tail {D R : List Byte} {c : Byte} {k : Nat} (h : D.drop k = c :: R) : D.drop (k + 1) = R := by
  rw [← List.drop_drop, h]; rfl

theorem stripOwn_length {D : List Byte} {i n : Nat} (hn : 0 < n) :
    ∀ (R : List Byte) (z k : Nat), D.drop (k + z) = R → k ≤ i → k + (stripOwn D i n z R).length ≤ i := by
  intro R
  induction R with
  | nil => intro z k _ hk; simpa [stripOwn] using hk
  | cons c R ih =>
    intro z k hR hk
    rw [stripOwn]
    split
    · exact ih (z + 1) k (drop_tail hR) hk
    · rename_i hc
      have hki : k ≠ i := fun e => hc (ownWindow_head hn hR e)
      have := ih z (k + 1) (by rw [← drop_tail hR]; congr 1; omega) (by omega)
      simp only [List.length_cons]; omega

theorem stripOwn_kept {D : List Byte} {i n : Nat} (hn : 0 < n) (hkeep : ∀ c ∈ D.take i, c ∉ (D.drop i).take n) :
    ∀ (R : List Byte) (k : Nat), D.drop k = R → k ≤ i → stripOwn D i n 0 R = R.take (i - k) := by
  intro R
  induction R with
  | nil => intro k _ _; simp [stripOwn]
  | cons c R ih =>
    intro k hR hk
    rcases Nat.eq_or_lt_of_le hk with e | hlt
    · have hl := stripOwn_length (D := D) hn (c :: R) 0 k (by simpa using hR) hk
      have : (stripOwn D i n 0 (c :: R)).length = 0 := by omega
      rw [List.length_eq_zero_iff.1 this]
      simp [e]
    · have hmem : c ∈ D.take i := by
        have hkD : k < D.length := by
          rcases Nat.lt_or_ge k D.length with h | h
          · exact h
          · rw [List.drop_of_length_le h] at hR; cases hR
        have hget : D[k] = c := by
          have := List.drop_eq_getElem_cons hkD
          rw [hR] at this
          exact (List.cons.inj this).1.symm
        rw [← hget]
        exact List.mem_take_iff_getElem.2 ⟨k, by omega, rfl⟩
      have hw : c ∉ ownWindow D i n 0 := by simpa [ownWindow] using hkeep c hmem
      rw [stripOwn, if_neg hw, ih (k + 1) (drop_tail hR) (by omega), show i - k = (i - (k + 1)) + 1 by omega]
      rfl

/-- C40, characters given by a view of the buffer's own content: what the code does instead. Never undefined, the storage and the capacity
stay, the result is a valid buffer whose content is part of the old one in the old order: exactly `stripOwn`. No more than the bytes before
the view can be left. When none of the bytes before the view is a character of the view, exactly these are left, whatever follows. -/
theorem C40_strip_own {cfg : Cfg} {s : St} (hs : s.Sane) {p : Addr} {b : Buf} (hb : BufAt s p b) {i n : Nat} (hn : 0 < n)
    (hin : i + n ≤ b.data.length) :
    let result := stripOwn b.data i n 0 b.data
    Yields s p b (strbuf_strip_strview cfg s (some p) ⟨p + 24 + (i : Int), (n : Int)⟩) result b.cap ∧
    result.Sublist b.data ∧ result.length ≤ i ∧
    ((∀ c ∈ b.data.take i, c ∉ (b.data.drop i).take n) → result = b.data.take i) := by
  refine ⟨strip_own_yields hs hb hn hin, stripOwn_sublist _ _ _ _ _, ?_, fun h => ?_⟩
  · simpa using stripOwn_length (D := b.data) hn b.data 0 0 (by simp) (Nat.zero_le i)
  · simpa using stripOwn_kept hn h b.data 0 (by simp) (Nat.zero_le i)

/-- C40. So the documented result is lost whenever more than `i` bytes should be left: in every sane state, for every buffer. -/
theorem C40_strip_own_differs {cfg : Cfg} {s : St} (hs : s.Sane) {p : Addr} {b : Buf} (hb : BufAt s p b) {i n : Nat} (hn : 0 < n)
    (hin : i + n ≤ b.data.length) (hmore : i < (b.data.filter (· ∉ (b.data.drop i).take n)).length) :
    ∃ kept : List Byte, kept ≠ b.data.filter (· ∉ (b.data.drop i).take n) ∧
      Yields s p b (strbuf_strip_strview cfg s (some p) ⟨p + 24 + (i : Int), (n : Int)⟩) kept b.cap := by
  obtain ⟨h1, _, h3, _⟩ := C40_strip_own (cfg := cfg) hs hb hn hin
  exact ⟨_, fun e => by rw [e] at h3; omega, h1⟩

-- stripping `hello` of its own `l` leaves `he`, not `heo`; of its own last `o`, the documented `hell`
example : Yields (exSt exF []) exP exF (strbuf_strip_strview isoCfg (exSt exF []) (some exP) ⟨exP + 24 + (2 : Nat), (1 : Nat)⟩) [104, 101] 8 :=
  (C40_strip_own (cfg := isoCfg) (exSt_sane exF_valid []) (exSt_buf exF_valid []) (i := 2) (n := 1) (by decide) (by decide)).1
example : Yields (exSt exF []) exP exF (strbuf_strip_strview isoCfg (exSt exF []) (some exP) ⟨exP + 24 + (4 : Nat), (1 : Nat)⟩) [104, 101, 108, 108] 8 :=
  (C40_strip_own (cfg := isoCfg) (exSt_sane exF_valid []) (exSt_buf exF_valid []) (i := 4) (n := 1) (by decide) (by decide)).1
example := C40_strip_own_differs (cfg := isoCfg) (exSt_sane exF_valid []) (exSt_buf exF_valid []) (i := 2) (n := 1) (by decide) (by decide) (by decide)

/-! C45 -/

/-- C45. The callback is called with the address just after the content and the free space. When it reports `r` bytes, no more than that
space, the content grows by exactly `r` bytes. These are the bytes the callback wrote, if it wrote as many as it reports (if it wrote
fewer, the rest is whatever was there). The capacity does not change. -/
theorem C45_append_using {cfg : Cfg} {s : St} (hs : s.Sane) {p : Addr} {b : Buf} (hb : BufAt s p b)
    {f : Fetcher} {l : List Byte} {r : Nat}
    (hf : f s.mem (p + 24 + b.data.length) ((b.cap - b.data.length : Nat) : Int) = (l, (r : Int)))
    (hl : b.data.length + l.length ≤ b.cap) (hr : b.data.length + r ≤ b.cap) :
    (r ≤ l.length → Yields s p b (strbuf_append_using cfg s (some p) f) (b.data ++ l.take r) b.cap) ∧
    ∃ t : List Byte, t.length = r ∧ t.take l.length = l.take r ∧
      Yields s p b (strbuf_append_using cfg s (some p) f) (b.data ++ t) b.cap := by
  obtain ⟨t, h1, h2, h3⟩ := using_yields (cfg := cfg) hs hb hf hl hr
  refine ⟨fun h => ?_, t, h1, h2, h3⟩
  rw [List.take_of_length_le (by omega)] at h2
  rwa [← h2]

/-- C45. When the callback reports a negative number or more than the free space, the buffer is emptied and an invalid view returned. -/
theorem C45_append_using_fault {cfg : Cfg} {s : St} (hs : s.Sane) {p : Addr} {b : Buf} (hb : BufAt s p b)
    {f : Fetcher} {l : List Byte} {r : Int}
    (hf : f s.mem (p + 24 + b.data.length) ((b.cap - b.data.length : Nat) : Int) = (l, r))
    (hl : b.data.length + l.length ≤ b.cap) (hr : r < 0 ∨ (b.cap : Int) < b.data.length + r)
    (h1 : INT_MIN ≤ r) (h2 : r ≤ INT_MAX) :
    ∃ s', strbuf_append_using cfg s (some p) f = .ok (.invalid, some p, s') ∧ Result s p b [] b.cap p s' :=
  using_fault hs hb hf hl hr h1 h2

-- a callback that fills the free space, one that writes too little, one that reports a failure
example : Yields (exSt exF []) exP exF
    (strbuf_append_using isoCfg (exSt exF []) (some exP) (fun _ _ n => (List.replicate n.toNat 65, n)))
    [104, 101, 108, 108, 111, 65, 65, 65] 8 :=
  (C45_append_using (r := 3) (exSt_sane exF_valid []) (exSt_buf exF_valid _) (f := fun _ _ n => (List.replicate n.toNat 65, n)) rfl
    (by decide) (by decide)).1 (by decide)

example : ∃ s', strbuf_append_using isoCfg (exSt exF []) (some exP) (fun _ _ _ => ([65, 66], -1)) = .ok (.invalid, some exP, s') ∧
    Result (exSt exF []) exP exF [] 8 exP s' :=
  C45_append_using_fault (exSt_sane exF_valid []) (exSt_buf exF_valid _) (f := fun _ _ _ => ([65, 66], -1)) rfl
    (by decide) (.inl (by decide)) (by decide) (by decide)

/-! C46 -/

/-- C46, for formats that succeed. `strbuf_append_printf` appends exactly the formatted text if the result fits, and empties the buffer
otherwise. `hroom` excludes one more signed overflow: `capacity - size + 1` for an empty buffer of capacity `INT_MAX`. Missing for the
full property: `vsnprintf` errors, which break the buffer (`C46_error_deviation`). -/
theorem C46_append_printf_partial {cfg : Cfg} (hcfg : cfg.Ok) {s : St} (hs : s.Sane) {p : Addr} {b : Buf} (hb : BufAt s p b)
    {fmt : Fmt} {l : List Byte} (hf : fmt.Gives s p (storage b.cap) l) (hl : (l.length : Int) ≤ INT_MAX)
    (hh : cfg.Handles b (b.data.length + l.length))
    (hroom : cfg.wrapv = true ∨ (b.capFor cfg (b.data.length + l.length) : Int) - b.data.length < INT_MAX) :
    Yields s p b (strbuf_append_printf cfg s (some p) fmt)
      (if b.Fits (b.data.length + l.length) then b.data ++ l else []) (b.capFor cfg (b.data.length + l.length)) :=
  append_printf_yields hcfg hs hb hf hl hh hroom

/-- C46. The same for `strbuf_printf`, which replaces the content. -/
theorem C46_printf_partial {cfg : Cfg} (hcfg : cfg.Ok) {s : St} (hs : s.Sane) {p : Addr} {b : Buf} (hb : BufAt s p b)
    {fmt : Fmt} {l : List Byte} (hf : fmt.Gives s p (storage b.cap) l) (hl : (l.length : Int) ≤ INT_MAX)
    (hh : cfg.Handles b l.length)
    (hroom : cfg.wrapv = true ∨ (b.capFor cfg l.length : Int) < INT_MAX) :
    Yields s p b (strbuf_printf cfg s (some p) fmt) (if b.Fits l.length then l else []) (b.capFor cfg l.length) :=
  printf_yields hcfg hs hb hf hl hh hroom

/-- A format without arguments: always the same text. -/
def constFmt (l : List Byte) : Fmt := fun _ => .text l

example : Yields (exSt exB []) exP exB (strbuf_append_printf isoCfg (exSt exB []) (some exP) (constFmt [49, 50, 51, 52]))
    [104, 101, 108, 108, 111, 49, 50, 51, 52] 16 :=
  C46_append_printf_partial isoCfg_ok (exSt_sane exB_valid []) (exSt_buf exB_valid _) (fun _ _ => rfl) (by decide)
    (.inr (.inr (.inl (by decide)))) (.inr (by decide))

example : Yields (exSt exF []) exP exF (strbuf_append_printf isoCfg (exSt exF []) (some exP) (constFmt [49, 50, 51, 52])) [] 8 :=
  C46_append_printf_partial isoCfg_ok (exSt_sane exF_valid []) (exSt_buf exF_valid _) (fun _ _ => rfl) (by decide)
    (.inr (.inr (.inl (by decide)))) (.inr (by decide))

/-- C46. Deviation: when `vsnprintf` reports an error (-1), `strbuf_append_printf` adds -1 to the size: `hello` becomes `hell`, with the
terminator after it missing (the byte after the content is not NUL). On an empty buffer the size becomes -1. -/
theorem C46_error_deviation :
    (contentAfter (strbuf_append_printf isoCfg (exSt exB []) (some exP) (fun _ => .error (-1) [])) = some [104, 101, 108, 108]) ∧
    (∃ v p s, strbuf_append_printf isoCfg (exSt exB []) (some exP) (fun _ => .error (-1) []) = .ok (v, some p, s) ∧
      rd s.mem (p + 24 + 4) = some 111) ∧
    (∃ p s, strbuf_printf isoCfg (exSt exB []) (some exP) (fun _ => .error (-1) []) = .ok (⟨p + 24, -1⟩, some p, s)) := by
  refine ⟨by decide +kernel, ?_, ?_⟩
  · have h : (match strbuf_append_printf isoCfg (exSt exB []) (some exP) (fun _ => .error (-1) []) with
        | .ok (_, some p, s) => decide (rd s.mem (p + 24 + 4) = some 111)
        | _ => false) = true := by decide +kernel
    split at h
    · next v p s e => exact ⟨v, p, s, e, of_decide_eq_true h⟩
    · cases h
  · have h : (match strbuf_printf isoCfg (exSt exB []) (some exP) (fun _ => .error (-1) []) with
        | .ok (v, some p, _) => decide (v = ⟨p + 24, -1⟩)
        | _ => false) = true := by decide +kernel
    split at h
    · next v p s e => exact ⟨p, s, by rw [e, of_decide_eq_true h]⟩
    · cases h

/-- C46. The deviation in general: for every buffer and every error `r` of `vsnprintf`, the (negative) result is added to the size and a
view of that size is returned. The old content is followed by what `vsnprintf` wrote, as far as there is space, and its terminator. The
buffer is not well-formed any more if the size is negative or the byte after the shortened content is not NUL. -/
theorem C46_append_printf_error_deviation {cfg : Cfg} {s : St} {p : Addr} {b : Buf} (hb : BufAt s p b) {fmt : Fmt} {r : Int} {w : List Byte}
    (hf : fmt s.mem = .error r w) (hr : INT_MIN ≤ r ∧ r < 0) (hroom : (b.cap : Int) - b.data.length < INT_MAX) :
    ∃ s', strbuf_append_printf cfg s (some p) fmt = .ok (⟨p + 24, b.data.length + r⟩, some p, s') ∧
      Holds s'.mem (p + 24) (b.data ++ w.take (b.cap - b.data.length) ++ [0]) ∧
      (((b.data.length : Int) + r < 0 ∨ ∃ c ≠ 0, b.data[((b.data.length : Int) + r).toNat]? = some c) → ∀ b', ¬ BufAt s' p b') := by
  obtain ⟨s', h1, h2, h3⟩ := append_printf_error (cfg := cfg) hb hf hr hroom
  refine ⟨s', h1, h3, fun hc b' hb' => ?_⟩
  have h4 := hb'.getSize
  rw [h2] at h4
  injection h4 with h4
  rcases hc with hc | ⟨c, hc, hg⟩
  · omega
  · rw [h4, Int.toNat_natCast] at hg
    obtain ⟨hlt, hg⟩ := List.getElem?_eq_some_iff.1 hg
    have h5 := hb'.holds
    rw [Holds.append_iff] at h5
    have h6 := h5.2 0 (by simp)
    have h7 := h3 b'.data.length (by simp; omega)
    have e : p + (((hdrBytes b'.data.length b'.cap b'.al ++ b'.data).length : Nat) : Int) + ((0 : Nat) : Int) = p + 24 + b'.data.length := by
      rw [List.length_append, hdrBytes_length]; omega
    rw [e, h7] at h6
    injection h6 with h6
    apply hc
    rw [← hg]
    simpa [List.getElem_append, hlt] using h6

-- an error after two characters: `hello` becomes `hell`, followed by `o` and the two characters
example : ∃ s', strbuf_append_printf isoCfg (exSt exB []) (some exP) (fun _ => .error (-1) [49, 50]) = .ok (⟨exP + 24, 4⟩, some exP, s') ∧
    Holds s'.mem (exP + 24) [104, 101, 108, 108, 111, 49, 50, 0] ∧ ∀ b', ¬ BufAt s' exP b' := by
  obtain ⟨s', h1, h2, h3⟩ := C46_append_printf_error_deviation (cfg := isoCfg) (exSt_buf exB_valid []) (fmt := fun _ => .error (-1) [49, 50]) (r := -1)
    (w := [49, 50]) rfl (by decide) (by decide)
  exact ⟨s', h1, h2, h3 (.inr ⟨111, by decide, by decide⟩)⟩

/-- A format `%s` with a pointer: the C string found there. -/
def strFmt (a : Addr) : Fmt := fun m =>
  match cstr m a with
  | .ok v => match readBytes m v.data v.size.toNat with
    | .ok l => .text l
    | _ => .error (-1) []
  | _ => .error (-1) []

/-- C46. Deviation from "all buffer operations can source data from the destination itself" (docs/strbuf-api.md line 134): `strbuf_printf` empties
the buffer before it formats, so printing a buffer's own content to itself loses it. -/
theorem C46_printf_self_deviation :
    strFmt (exP + 24) (exSt exB []).mem = .text [104, 101, 108, 108, 111] ∧
    contentAfter (strbuf_printf isoCfg (exSt exB []) (some exP) (strFmt (exP + 24))) = some [] := by
  constructor
  · decide +kernel
  · decide +kernel

/-- C46. The deviation in general: whatever a buffer holds, `strbuf_printf` with the buffer's own content as the argument of `%s` leaves it empty (and as
large as it was). -/
theorem C46_every_printf_self_deviation {cfg : Cfg} (hcfg : cfg.Ok) {s : St} (hs : s.Sane) {p : Addr} {b : Buf} (hb : BufAt s p b)
    (hroom : cfg.wrapv = true ∨ (b.cap : Int) < INT_MAX) :
    Yields s p b (strbuf_printf cfg s (some p) (strFmt (p + 24))) [] b.cap := by
  obtain ⟨m1, e1, r1⟩ := (ReszOk.refl hs hb).emptied
  have hb1 := r1.buf
  obtain ⟨J, hJ, hraw⟩ := hb1.raw
  simp only at hJ hraw
  have h0 : load m1 (p + 24) = .ok 0 := by
    have := hb1.holds
    rw [List.append_nil, Holds.append_iff, hdrBytes_length] at this
    exact this.2.load_head
  have hf : strFmt (p + 24) m1 = .text [] := by
    have hpos := hb.pos
    simp only [strFmt, cstr]
    rw [if_neg (by omega), strlen, h0]
    rfl
  have hens : ensure_capacity cfg { s with mem := m1 } p 0 = .ok (p, { s with mem := m1 }) := by
    rw [ensure_capacity, hraw.is_dynamic, Res.bind_ok, hraw.getCap, Res.bind_ok, if_neg]
    omega
  have hv : ∀ d n, vsnprintf m1 d n (strFmt (p + 24)) = vsnprintf m1 d n (constFmt []) := by
    intro d n
    simp only [vsnprintf, hf, constFmt]
  have hv0 : vsnprintf m1 0 0 (constFmt []) = .ok (0, m1) := by simp [vsnprintf, constFmt, INT_MAX]
  have e : strbuf_printf cfg s (some p) (strFmt (p + 24)) = strbuf_printf cfg s (some p) (constFmt []) := by
    rw [strbuf_printf, strbuf_printf, deref_some hb.pos]
    simp only
    rw [e1, Res.bind_ok, Res.bind_ok, strbuf_append_printf, strbuf_append_printf, deref_some hb.pos]
    simp only [hv]
    rw [hraw.getSize, Res.bind_ok, Res.bind_ok, hv0, Res.bind_ok, Res.bind_ok]
    simp only
    have hadd : addInt cfg ((([] : List Byte).length : Nat) : Int) 0 = .ok 0 := addInt_ok cfg (by decide) (by decide)
    rw [hadd, Res.bind_ok, Res.bind_ok, hens, Res.bind_ok, Res.bind_ok]
    simp only [hv]
  rw [e]
  have hc : b.capFor cfg 0 = b.cap := by
    simp only [Buf.capFor]
    split
    · simp [grownCap]
    · rfl
  have hfits : b.Fits 0 := by
    simp [Buf.Fits]
  have := C46_printf_partial hcfg hs hb (fmt := constFmt []) (l := []) (fun _ _ => rfl) (by decide) (by
    simp only [List.length_nil, Cfg.Handles]; omega) (by simp only [List.length_nil, hc]; exact hroom)
  simpa [hc, hfits] using this

example : Yields (exSt exB []) exP exB (strbuf_printf isoCfg (exSt exB []) (some exP) (strFmt (exP + 24))) [] 8 :=
  C46_every_printf_self_deviation isoCfg_ok (exSt_sane exB_valid []) (exSt_buf exB_valid _) (.inr (by decide))

/-! C47 -/

/-- C47. `strbuf_append_prnf` appends all characters if the result fits, with the capacity rule of C53, and otherwise leaves the buffer empty. -/
theorem C47_append_prnf {cfg : Cfg} (hcfg : cfg.Ok) {s : St} (hs : s.Sane) {p : Addr} {b : Buf} (hb : BufAt s p b)
    {t : List Byte} (ht : (t.length : Int) ≤ INT_MAX) (hh : cfg.Handles b (b.data.length + t.length)) :
    ∃ cap, (b.Fits (b.data.length + t.length) → cap = b.capFor cfg (b.data.length + t.length)) ∧
      YieldsVia s p b (strbuf_append_prnf cfg s (some p) t)
        (if b.Fits (b.data.length + t.length) then b.data ++ t else []) cap :=
  append_prnf_yields hcfg hs hb ht hh

/-- C47. The same for `strbuf_prnf`, which replaces the content. -/
theorem C47_prnf {cfg : Cfg} (hcfg : cfg.Ok) {s : St} (hs : s.Sane) {p : Addr} {b : Buf} (hb : BufAt s p b)
    {t : List Byte} (ht : (t.length : Int) ≤ INT_MAX) (hh : cfg.Handles b t.length) :
    ∃ cap, (b.Fits t.length → cap = b.capFor cfg t.length) ∧
      YieldsVia s p b (strbuf_prnf cfg s (some p) t) (if b.Fits t.length then t else []) cap :=
  prnf_yields hcfg hs hb ht hh

-- ten characters for a fixed buffer of capacity 8: the fragment `90` is not left in the buffer
example : contentAfter (strbuf_prnf isoCfg (exSt exF []) (some exP) [49, 50, 51, 52, 53, 54, 55, 56, 57, 48]) = some [] := by
  decide +kernel

example : ∃ cap, YieldsVia (exSt exB []) exP exB (strbuf_append_prnf isoCfg (exSt exB []) (some exP) [49, 50, 51, 52])
    [104, 101, 108, 108, 111, 49, 50, 51, 52] cap := by
  obtain ⟨cap, _, h⟩ := C47_append_prnf isoCfg_ok (exSt_sane exB_valid []) (exSt_buf exB_valid []) (t := [49, 50, 51, 52]) (by decide)
    (.inr (.inr (.inl (by decide))))
  exact ⟨cap, h⟩

end CStr
