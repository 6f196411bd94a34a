import Verif.Props.BufInsert
/-! Property C37: concatenation. The arguments are a list of pairs (view, bytes it denotes). -/
namespace CStr

/-- C37. No argument starts inside the destination's content: the content becomes the concatenation, for dynamic and for fixed buffers. -/
theorem C37_cat {cfg : Cfg} (hcfg : cfg.Ok) {s : St} (hs : s.Sane) {p : Addr} {b : Buf} (hb : BufAt s p b)
    {args : List (View × List Byte)} (ha : ∀ a ∈ args, Source s p b a.1 a.2) (hno : ∀ a ∈ args, ¬ a.1.Into p b)
    (hfit : b.Fits (args.map (·.2)).flatten.length) (hh : cfg.Handles b (args.map (·.2)).flatten.length) :
    Yields s p b (strbuf_cat cfg s (some p) (args.map (·.1))) (args.map (·.2)).flatten
      (b.capFor cfg (args.map (·.2)).flatten.length) := by
  have h := cat_plain hcfg hs hb ha hno hh
  rwa [total, if_pos hfit] at h

/-- C37. Some arguments view the destination's own content, dynamic buffer: the content becomes the concatenation of all
arguments as they were before the call. One temporary block `q` is requested from the buffer's allocator and released again; apart
from that the allocator is called at most once, to grow the buffer. If its capacity suffices, the buffer stays where it is. -/
theorem C37_cat_self {cfg : Cfg} (hcfg : cfg.Ok) {s : St} (hs : s.Sane) {p : Addr} {b : Buf} (hb : BufAt s p b) (hd : b.Dynamic)
    {args : List (View × List Byte)} (ha : ∀ a ∈ args, Source s p b a.1 a.2) (hal : ∃ a ∈ args, a.1.Into p b)
    (hmax : ((args.map (·.2)).flatten.length : Int) ≤ INT_MAX) (hh : cfg.Handles b (args.map (·.2)).flatten.length) :
    strbuf_cat cfg s (some p) (args.map (·.1)) = .env .alloc ∨
    ∃ p' s' q cap, cap = b.capFor cfg (args.map (·.2)).flatten.length ∧
      strbuf_cat cfg s (some p) (args.map (·.1)) = .ok (⟨p' + 24, (args.map (·.2)).flatten.length⟩, some p', s') ∧
      Changed s p b (args.map (·.2)).flatten cap p' s' ∧
      s'.log = ⟨b.al, q, 0, 0⟩ :: ((if cap = b.cap then [] else [⟨b.al, p, storage cap, p'⟩]) ++
        ⟨b.al, 0, storage (args.map (·.2)).flatten.length, q⟩ :: s.log) ∧ (cap = b.cap → p' = p) := by
  rcases cat_alias hcfg hs hb ha hal hd hh hmax with h | ⟨p', s', q, h1, h2, h3, h4, _⟩
  · exact .inl h
  · exact .inr ⟨p', s', q, _, rfl, h1, h2, h3, h4⟩

/-- C37. For a dynamic buffer and any arguments: the concatenation, if it is not longer than `INT_MAX`. -/
theorem C37_cat_dynamic {cfg : Cfg} (hcfg : cfg.Ok) {s : St} (hs : s.Sane) {p : Addr} {b : Buf} (hb : BufAt s p b) (hd : b.Dynamic)
    {args : List (View × List Byte)} (ha : ∀ a ∈ args, Source s p b a.1 a.2)
    (hmax : ((args.map (·.2)).flatten.length : Int) ≤ INT_MAX) (hh : cfg.Handles b (args.map (·.2)).flatten.length) :
    YieldsVia s p b (strbuf_cat cfg s (some p) (args.map (·.1))) (args.map (·.2)).flatten
      (b.capFor cfg (args.map (·.2)).flatten.length) := by
  by_cases hal : ∃ a ∈ args, a.1.Into p b
  · rcases C37_cat_self hcfg hs hb hd ha hal hmax hh with h | ⟨p', s', q, cap, rfl, e, c, _⟩
    · exact .inl ⟨hd, h⟩
    · exact .inr ⟨p', s', e, c⟩
  · rcases C37_cat hcfg hs hb ha (fun a h1 h2 => hal ⟨a, h1, h2⟩) (.inr ⟨hd, hmax⟩) hh with h | ⟨p', s', e, r⟩
    · exact .inl ⟨hd, h.2⟩
    · exact .inr ⟨p', s', e, r.changed (fun h => absurd hd h)⟩

/-- C37. A fixed buffer that is itself among the arguments is emptied, even when the concatenation would fit. (strbuf.h line 169 and
docs/strbuf-api.md line 134 allow such arguments only if the destination is dynamic.) -/
theorem C37_cat_self_fixed {cfg : Cfg} (hcfg : cfg.Ok) {s : St} (hs : s.Sane) {p : Addr} {b : Buf} (hb : BufAt s p b) (hd : ¬ b.Dynamic)
    {args : List (View × List Byte)} (ha : ∀ a ∈ args, Source s p b a.1 a.2) (hal : ∃ a ∈ args, a.1.Into p b)
    (hh : cfg.Handles b (args.map (·.2)).flatten.length) :
    Yields s p b (strbuf_cat cfg s (some p) (args.map (·.1))) [] b.cap :=
  cat_alias_fixed hcfg hs hb ha hal hd hh

-- `hello` := other ++ `llo` ++ `he` ++ other, through a temporary buffer
example : YieldsVia (exSt exB [1, 2, 3]) exP exB
    (strbuf_cat isoCfg (exSt exB [1, 2, 3]) (some exP)
      [⟨exQ, 3⟩, ⟨exP + 24 + (2 : Nat), (3 : Nat)⟩, ⟨exP + 24 + (0 : Nat), (2 : Nat)⟩, ⟨exQ, 3⟩])
    [1, 2, 3, 108, 108, 111, 104, 101, 1, 2, 3] 16 := by
  have h := C37_cat_dynamic isoCfg_ok (exSt_sane exB_valid [1, 2, 3]) (exSt_buf exB_valid _) (by decide)
    (args := [(⟨exQ, 3⟩, [1, 2, 3]), (⟨exP + 24 + (2 : Nat), (3 : Nat)⟩, [108, 108, 111]),
      (⟨exP + 24 + (0 : Nat), (2 : Nat)⟩, [104, 101]), (⟨exQ, 3⟩, [1, 2, 3])])
    (by
      intro a h
      simp only [List.mem_cons, List.not_mem_nil, or_false] at h
      rcases h with rfl | rfl | rfl | rfl
      · exact exSt_source exB_valid (by decide)
      · exact (exSt_buf exB_valid _).partSource 2 3 (by decide)
      · exact (exSt_buf exB_valid _).partSource 0 2 (by decide)
      · exact exSt_source exB_valid (by decide))
    (by decide) (.inr (.inr (.inl (by decide))))
  exact h

example : (strbuf_cat isoCfg (exSt exB [1, 2, 3]) (some exP)
    [⟨exQ, 3⟩, ⟨exP + 24 + 2, 3⟩, ⟨exP + 24, 2⟩, ⟨exQ, 3⟩]).isOk = true := by decide +kernel

end CStr
