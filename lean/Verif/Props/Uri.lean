import Verif.Lemmas.Uri
import Verif.Lemmas.Examples
import Verif.Lemmas.Print
/-! Property C58: the URI parser of examples/parse-uri. -/
namespace CStr

/-- C58. For every input, valid or not, `parse_uri` has no undefined behaviour, and every component it finds is a part of the input. -/
theorem C58_components_inside {m : Mem} {v : View} (h : v = .invalid ∨ ∃ l, ViewOf m v l) :
    ∃ u, parse_uri m v = .ok u ∧ u.scheme.Inside v ∧ u.host.Inside v ∧ u.path.Inside v ∧ u.user.Inside v ∧ u.port.Inside v := by
  have hc : ∃ o, Component m v o := by
    rcases h with rfl | ⟨l, hl⟩
    · exact ⟨none, rfl⟩
    · exact ⟨some l, hl⟩
  obtain ⟨o, hc⟩ := hc
  obtain ⟨u, e, hu⟩ := parse_text hc
  exact ⟨u, e, hu.schemeIn, hu.hostIn, hu.pathIn, hu.userIn, hu.portIn⟩

theorem dropTwo_slashes {l : List Byte} (h : l ≠ []) : dropTwo (some (47 :: 47 :: l)) = some l := by
  simp only [dropTwo]
  rw [if_neg (by have := List.length_pos_iff.2 h; simp only [List.length_cons]; omega)]
  rfl

theorem parseUser_none {l : List Byte} (h : 64 ∉ l) : parseUser (some l) = (none, some l) := by
  simp only [parseUser, cut_not_mem h]
  rfl

theorem parseUser_some {u l : List Byte} (h : 64 ∉ u) : parseUser (some (u ++ 64 :: l)) = (some u, some l) := by
  simp only [parseUser, cut_mem h]
  rfl

/-- The part after the user. -/
theorem parseRest_host (scheme user : Option (List Byte)) {host : List Byte} {port path : Option (List Byte)} (h1 : 58 ∉ host ∧ 47 ∉ host)
    (h2 : ∀ s, port = some s → 47 ∉ s ∧ ∃ d t, s = d :: t ∧ 48 ≤ d ∧ d ≤ 57) (h3 : port = none → ∀ s, path = some s → 58 ∉ s) :
    parseRest scheme user (some (host ++ optBefore [58] port ++ optBefore [47] path)) = ⟨scheme, some host, path, user, port⟩ := by
  cases port with
  | none =>
    have hno : ¬ Has [58] (some (host ++ optBefore [58] none ++ optBefore [47] path)) := by
      rw [has_char]
      simp only [optBefore, List.append_nil, List.mem_append, not_or]
      refine ⟨h1.1, ?_⟩
      cases path with
      | none => simp
      | some s =>
        have := h3 rfl s rfl
        simpa [optBefore] using this
    rw [parseRest, if_neg hno]
    cases path with
    | none => simp only [optBefore, List.append_nil, cut_not_mem h1.2]
    | some s =>
      have : host ++ optBefore [58] none ++ optBefore [47] (some s) = host ++ 47 :: s := by simp [optBefore]
      rw [this, cut_mem h1.2]
  | some pt =>
    obtain ⟨h47, d, t, rfl, hd1, hd2⟩ := h2 pt rfl
    have e : host ++ optBefore [58] (some (d :: t)) ++ optBefore [47] path = host ++ 58 :: (d :: t ++ optBefore [47] path) := by simp [optBefore]
    have hyes : Has [58] (some (host ++ 58 :: (d :: t ++ optBefore [47] path))) := has_char.2 (by simp)
    rw [e, parseRest, if_pos hyes, cut_mem h1.1]
    simp only
    have hdig : digitFirst (some (d :: t ++ optBefore [47] path)) = true := by
      simp only [List.cons_append, digitFirst, isDigit, Bool.and_eq_true, decide_eq_true_eq]
      exact ⟨hd1, hd2⟩
    rw [hdig, if_pos rfl]
    cases path with
    | none => simp only [optBefore, List.append_nil, cut_not_mem h47]
    | some s =>
      have : (d :: t) ++ optBefore [47] (some s) = (d :: t) ++ 47 :: s := by simp [optBefore]
      rw [this, cut_mem h47]

theorem parseText_host {u : HostUri} (h : u.Ok) : parseText (some u.text) = ⟨u.scheme, some u.host, u.path, u.user, u.port⟩ := by
  have hs : parseScheme (some u.text) = (u.scheme, some u.rest) := by
    cases hsch : u.scheme with
    | none =>
      have hno : ¬ Has [58, 47, 47] (some u.text) := by
        rintro ⟨i, hi⟩
        simp only [HostUri.text, hsch, optAfter, List.nil_append] at hi
        exact h.noScheme hsch i hi
      rw [parseScheme, if_neg hno]
      simp only [HostUri.text, hsch, optAfter, List.nil_append]
    | some s =>
      obtain ⟨h58, hne⟩ := h.scheme s hsch
      have e : u.text = s ++ 58 :: 47 :: 47 :: u.rest := by simp [HostUri.text, hsch, optAfter]
      have hyes : Has [58, 47, 47] (some u.text) := ⟨s.length, s, [58, 47, 47], u.rest, by rw [e]; simp, rfl, rfl⟩
      rw [parseScheme, if_pos hyes, e, cut_mem h58]
      simp only [dropTwo_slashes hne]
  have hu : parseUser (some u.rest) = (u.user, some (u.host ++ optBefore [58] u.port ++ optBefore [47] u.path)) := by
    cases husr : u.user with
    | none =>
      have h64 := h.noUser husr
      rw [parseUser_none h64]
      simp only [HostUri.rest, husr, optAfter, List.nil_append]
    | some s =>
      have e : u.rest = s ++ 64 :: (u.host ++ optBefore [58] u.port ++ optBefore [47] u.path) := by simp [HostUri.rest, husr, optAfter]
      rw [e, parseUser_some (h.user s husr)]
  rw [parseText, hs]
  simp only
  rw [hu]
  exact parseRest_host _ _ h.host h.port h.noPort

/-- C58. A text `[scheme://][user@]host[:port][/path]`, with any of the optional components, is taken apart into exactly these components; components that are absent are
invalid views. `HostUri.Ok` says which characters the components must not contain. -/
theorem C58_host_uri {m : Mem} {v : View} (t : HostUri) (ht : t.Ok) (hv : ViewOf m v t.text) :
    ∃ u, parse_uri m v = .ok u ∧ Component m u.scheme t.scheme ∧ Component m u.user t.user ∧ Component m u.host (some t.host) ∧
      Component m u.port t.port ∧ Component m u.path t.path := by
  obtain ⟨u, e, hu⟩ := parse_text (o := some t.text) hv
  rw [parseText_host ht] at hu
  exact ⟨u, e, hu.scheme, hu.user, hu.host, hu.port, hu.path⟩

/-- C58. A text `scheme:[path]` is taken apart into scheme and path; the other components are absent, and so is an empty path. -/
theorem C58_path_uri {m : Mem} {v : View} (t : PathUri) (ht : t.Ok) (hv : ViewOf m v t.text) :
    ∃ u, parse_uri m v = .ok u ∧ Component m u.scheme (some t.scheme) ∧ Component m u.path (if t.path = [] then none else some t.path) ∧
      u.user = .invalid ∧ u.host = .invalid ∧ u.port = .invalid := by
  obtain ⟨u, e, hu⟩ := parse_text (o := some t.text) hv
  have ht' : parseText (some t.text) = ⟨some t.scheme, none, if t.path = [] then none else some t.path, none, none⟩ := by
    have hno : ¬ Has [58, 47, 47] (some t.text) := fun ⟨i, hi⟩ => ht.noHost i hi
    have hs : parseScheme (some t.text) = (none, some t.text) := by rw [parseScheme, if_neg hno]
    have e2 : t.text = t.scheme ++ 58 :: t.path := by simp [PathUri.text]
    have hyes : Has [58] (some t.text) := has_char.2 (by rw [e2]; simp)
    rw [parseText, hs]
    simp only
    rw [parseUser_none ht.noUser]
    simp only
    rw [parseRest, if_pos hyes, e2, cut_mem ht.scheme]
    simp only
    have hd : digitFirst (some t.path) = false := by
      cases hp : t.path with
      | nil => rfl
      | cons d r =>
        have := ht.noPort d r hp
        simp only [digitFirst, isDigit]
        simpa using this
    rw [hd]
    simp only [Bool.false_eq_true, if_false, Option.some.injEq]
  rw [ht'] at hu
  exact ⟨u, e, hu.scheme, hu.path, hu.user, hu.host, hu.port⟩

theorem not_occurs {n l : List Byte} (h : ∀ i < l.length + 1, (l.drop i).take n.length ≠ n) (i : Nat) : ¬ OccursAt id n l i := by
  rintro ⟨pre, mid, post, rfl, rfl, hm⟩
  simp only [List.map_id] at hm
  subst hm
  refine h pre.length (by simp only [List.length_append]; omega) ?_
  rw [List.append_assoc, List.drop_left, List.take_left]

/-- `http://mick@github.com:80/a@b:c`. -/
def exUri : HostUri where
  scheme := some [104, 116, 116, 112]
  user := some [109, 105, 99, 107]
  host := [103, 105, 116, 104, 117, 98, 46, 99, 111, 109]
  port := some [56, 48]
  path := some [97, 64, 98, 58, 99]

theorem exUri_ok : exUri.Ok where
  scheme := by intro s h; cases h; decide
  noScheme := by intro h; cases h
  user := by intro s h; cases h; decide
  noUser := by intro h; cases h
  host := by decide
  port := by intro s h; cases h; exact ⟨by decide, 56, [48], rfl, by decide, by decide⟩
  noPort := by intro h; cases h

example : ∃ u, parse_uri (memAt 1000 exUri.text) ⟨1000, exUri.text.length⟩ = .ok u ∧ ViewOf (memAt 1000 exUri.text) u.path [97, 64, 98, 58, 99] := by
  obtain ⟨u, e, -, -, -, -, h⟩ := C58_host_uri exUri exUri_ok (viewOf_memAt 1000 exUri.text (by decide) (by decide) (by decide))
  exact ⟨u, e, h⟩

/-- `git/a`: only host and path. -/
def exUri2 : HostUri := ⟨none, none, [103, 105, 116], none, some [97]⟩

theorem exUri2_ok : exUri2.Ok where
  scheme := by intro s h; cases h
  noScheme := by intro _; exact not_occurs (by decide)
  user := by intro s h; cases h
  noUser := by intro _; decide
  host := by decide
  port := by intro s h; cases h
  noPort := by intro _ s h; cases h; decide

example : ∃ u, parse_uri (memAt 1000 exUri2.text) ⟨1000, exUri2.text.length⟩ = .ok u ∧ u.port = .invalid ∧ ViewOf (memAt 1000 exUri2.text) u.host [103, 105, 116] := by
  obtain ⟨u, e, -, -, h1, h2, -⟩ := C58_host_uri exUri2 exUri2_ok (viewOf_memAt 1000 exUri2.text (by decide) (by decide) (by decide))
  exact ⟨u, e, h2, h1⟩

/-- `http:home/fred`. -/
def exUri3 : PathUri := ⟨[104, 116, 116, 112], [104, 111, 109, 101, 47, 102, 114, 101, 100]⟩

theorem exUri3_ok : exUri3.Ok where
  scheme := by decide
  noHost := not_occurs (by decide)
  noUser := by decide
  noPort := by intro d t h; cases h; decide

example : ∃ u, parse_uri (memAt 1000 exUri3.text) ⟨1000, exUri3.text.length⟩ = .ok u ∧ u.host = .invalid ∧ ViewOf (memAt 1000 exUri3.text) u.scheme [104, 116, 116, 112] := by
  obtain ⟨u, e, h1, -, -, h2, -⟩ := C58_path_uri exUri3 exUri3_ok (viewOf_memAt 1000 exUri3.text (by decide) (by decide) (by decide))
  exact ⟨u, e, h2, h1⟩

/-- C58. Why the conditions are needed. `a://h/p:q` (scheme, host and a path with a colon) gives the scheme `h/p`, no host and the path `q`; `a://h/p@q` gives the
user `h/p` and the host `q`; `a:8` (a path that starts with a digit) gives the host `a` and the port `8`; and for `a://` the host is absent, not empty. -/
theorem C58_ambiguous_texts :
    (parse_uri (memAt 1000 [97, 58, 47, 47, 104, 47, 112, 58, 113]) ⟨1000, 9⟩ = .ok ⟨⟨1004, 3⟩, .invalid, ⟨1008, 1⟩, .invalid, .invalid⟩) ∧
    (parse_uri (memAt 1000 [97, 58, 47, 47, 104, 47, 112, 64, 113]) ⟨1000, 9⟩ = .ok ⟨⟨1000, 1⟩, ⟨1008, 1⟩, .invalid, ⟨1004, 3⟩, .invalid⟩) ∧
    (parse_uri (memAt 1000 [97, 58, 56]) ⟨1000, 3⟩ = .ok ⟨.invalid, ⟨1000, 1⟩, .invalid, .invalid, ⟨1002, 1⟩⟩) ∧
    (parse_uri (memAt 1000 [97, 58, 47, 47]) ⟨1000, 4⟩ = .ok ⟨⟨1000, 1⟩, .invalid, .invalid, .invalid, .invalid⟩) := by
  refine ⟨by decide +kernel, by decide +kernel, by decide +kernel, by decide +kernel⟩

/-! The program -/

theorem show_component_eq {m : Mem} {v : View} {o : Option (List Byte)} (h : Component m v o) (h0 : ∀ l, o = some l → (0 : Byte) ∉ l) (name : List Byte) :
    show_component m (name ++ [32, 61, 32, 34]) v = .ok (shownLine name o) := by
  cases o with
  | none =>
    cases h
    rfl
  | some l =>
    have hv : ViewOf m v l := h
    have hp := hv.pos
    have hval : strview_is_valid v = true := by simp only [strview_is_valid]; exact decide_eq_true (by omega)
    have hw := List.takeWhile_append_of_pos (p := fun x : Byte => decide (x ≠ 0)) (l₁ := l) (l₂ := [])
      (by intro x hx; simpa using fun e : x = 0 => h0 l rfl (e ▸ hx))
    rw [List.append_nil, List.takeWhile_nil, List.append_nil] at hw
    rw [show_component, if_pos hval, pri_str_eq hv.toDenotes, Res.bind_ok, hw]
    rfl

theorem show_uri_eq {m : Mem} {u : Uri} {s h p us q : Option (List Byte)} (h1 : Component m u.scheme s) (h2 : Component m u.host h) (h3 : Component m u.path p)
    (h4 : Component m u.user us) (h5 : Component m u.port q) (h0 : ∀ o ∈ [s, h, p, us, q], ∀ l, o = some l → (0 : Byte) ∉ l) :
    show_uri m u = .ok (shownUri s h p us q) := by
  have e1 := show_component_eq h1 (h0 s (by simp)) [115, 99, 104, 101, 109, 101]
  have e2 := show_component_eq h2 (h0 h (by simp)) [104, 111, 115, 116, 32, 32]
  have e3 := show_component_eq h3 (h0 p (by simp)) [112, 97, 116, 104, 32, 32]
  have e4 := show_component_eq h4 (h0 us (by simp)) [117, 115, 101, 114, 32, 32]
  have e5 := show_component_eq h5 (h0 q (by simp)) [112, 111, 114, 116, 32, 32]
  simp only [List.cons_append, List.nil_append] at e1 e2 e3 e4 e5
  rw [show_uri, e1, Res.bind_ok, e2, Res.bind_ok, e3, Res.bind_ok, e4, Res.bind_ok, e5, Res.bind_ok]
  rfl

/-- C58. The program, called with a text `[scheme://][user@]host[:port][/path]`, prints the components that are present, in the order of `shownUri`. -/
theorem C58_program_host {m : Mem} {a : Addr} (t : HostUri) (ht : t.Ok) (ha : CString m a t.text) :
    uri_main m a = .ok (shownUri t.scheme (some t.host) t.path t.user t.port) := by
  obtain ⟨u, e, h1, h2, h3, h4, h5⟩ := C58_host_uri t ht ha.viewOf
  rw [uri_main, cstr_eq ha, Res.bind_ok, e, Res.bind_ok]
  refine show_uri_eq h1 h3 h5 h2 h4 ?_
  have h0 := ha.noNul
  simp only [HostUri.text, HostUri.rest, List.mem_append, not_or] at h0
  obtain ⟨k1, ⟨⟨k2, k3⟩, k4⟩, k5⟩ := h0
  intro o ho l hl
  simp only [List.mem_cons, List.not_mem_nil, or_false] at ho
  rcases ho with rfl | rfl | rfl | rfl | rfl
  · rw [hl] at k1; simp only [optAfter, List.mem_append, not_or] at k1; exact k1.1
  · cases hl; exact k3
  · rw [hl] at k5; simp only [optBefore, List.mem_append, not_or] at k5; exact k5.2
  · rw [hl] at k2; simp only [optAfter, List.mem_append, not_or] at k2; exact k2.1
  · rw [hl] at k4; simp only [optBefore, List.mem_append, not_or] at k4; exact k4.2

/-- C58. The program, called with a text `scheme:[path]`, prints the scheme and the path, if it is not empty. -/
theorem C58_program_path {m : Mem} {a : Addr} (t : PathUri) (ht : t.Ok) (ha : CString m a t.text) :
    uri_main m a = .ok (shownUri (some t.scheme) none (if t.path = [] then none else some t.path) none none) := by
  obtain ⟨u, e, h1, h2, h3, h4, h5⟩ := C58_path_uri t ht ha.viewOf
  rw [uri_main, cstr_eq ha, Res.bind_ok, e, Res.bind_ok]
  refine show_uri_eq h1 h4 h2 h3 h5 ?_
  have h0 := ha.noNul
  simp only [PathUri.text, List.mem_append, not_or] at h0
  intro o ho l hl
  simp only [List.mem_cons, List.not_mem_nil, or_false] at ho
  rcases ho with rfl | rfl | rfl | rfl | rfl
  · cases hl; exact h0.1.1
  · cases hl
  · by_cases hp : t.path = []
    · rw [if_pos hp] at hl; cases hl
    · rw [if_neg hp] at hl; cases hl; exact h0.2
  · cases hl
  · cases hl

theorem show_component_ok {m : Mem} {v : View} {o : Option (List Byte)} (h : Component m v o) (label : List Byte) : ∃ t, show_component m label v = .ok t := by
  cases o with
  | none => cases h; exact ⟨[], rfl⟩
  | some l =>
    have hv : ViewOf m v l := h
    rw [show_component, pri_str_eq hv.toDenotes, Res.bind_ok]
    by_cases c : strview_is_valid v = true
    · exact ⟨_, if_pos c⟩
    · exact ⟨_, if_neg c⟩

/-- C58. The program has no undefined behaviour for any argument. -/
theorem C58_program_safe {m : Mem} {a : Addr} {l : List Byte} (ha : CString m a l) : ∃ t, uri_main m a = .ok t := by
  obtain ⟨u, e, hu⟩ := parse_text (o := some l) ha.viewOf
  rw [uri_main, cstr_eq ha, Res.bind_ok, e, Res.bind_ok]
  obtain ⟨t1, e1⟩ := show_component_ok hu.scheme [115, 99, 104, 101, 109, 101, 32, 61, 32, 34]
  obtain ⟨t2, e2⟩ := show_component_ok hu.host [104, 111, 115, 116, 32, 32, 32, 61, 32, 34]
  obtain ⟨t3, e3⟩ := show_component_ok hu.path [112, 97, 116, 104, 32, 32, 32, 61, 32, 34]
  obtain ⟨t4, e4⟩ := show_component_ok hu.user [117, 115, 101, 114, 32, 32, 32, 61, 32, 34]
  obtain ⟨t5, e5⟩ := show_component_ok hu.port [112, 111, 114, 116, 32, 32, 32, 61, 32, 34]
  rw [show_uri, e1, Res.bind_ok, e2, Res.bind_ok, e3, Res.bind_ok, e4, Res.bind_ok, e5, Res.bind_ok]
  exact ⟨_, rfl⟩

/-- C58. Without an argument the program prints, for each demo string, the string in brackets and what it prints for it as an argument. -/
theorem C58_demo {m : Mem} (ds : List (Addr × List Byte)) (h : ∀ d ∈ ds, CString m d.1 d.2) (out : Addr → List Byte)
    (ho : ∀ d ∈ ds, uri_main m d.1 = .ok (out d.1)) :
    uri_demo m (ds.map (·.1)) = .ok (ds.flatMap fun d => [91] ++ d.2 ++ [93, 10] ++ out d.1) := by
  induction ds with
  | nil => rfl
  | cons d ds ih =>
    have hd := h d (by simp)
    have hr : readBytes m d.1 d.2.length = .ok d.2 := readBytes_eq (Holds.append_iff.1 hd.holds).1
    simp only [List.map_cons, uri_demo, List.flatMap_cons]
    rw [strlen_eq hd.holds hd.noNul _ (by have := hd.max; simp only [INT_MAX] at this; omega), Res.bind_ok, Int.toNat_natCast, hr, Res.bind_ok, ho d (by simp),
      Res.bind_ok, ih (fun x hx => h x (by simp [hx])) (fun x hx => ho x (by simp [hx])), Res.bind_ok]

-- `http://mick@github.com:80/a@b:c` is printed in five lines
example : uri_main (memAt 1000 (exUri.text ++ [0])) 1000 = .ok (shownUri exUri.scheme (some exUri.host) exUri.path exUri.user exUri.port) :=
  C58_program_host exUri exUri_ok ⟨by decide, by decide, by decide, holds_memAt 1000 _ (by decide) (by decide)⟩
example : uri_main (memAt 1000 (exUri3.text ++ [0])) 1000 = .ok (shownUri (some exUri3.scheme) none (some exUri3.path) none none) :=
  C58_program_path exUri3 exUri3_ok ⟨by decide, by decide, by decide, holds_memAt 1000 _ (by decide) (by decide)⟩

end CStr
