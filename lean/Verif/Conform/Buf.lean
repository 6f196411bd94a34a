import Verif.Conform.Base
/-! Unit tests of the project in the model: see `Conform/Base.lean`. Generated from test/test.c. -/
set_option linter.unusedVariables false
namespace CStr.Conform
open CStr

/-- test/test.c line 183: `test_strbuf_create_using_malloc`. -/
def test_strbuf_create_using_malloc : Res (List Nat) := do
  let lits : List (List Byte) := []
  let s := start lits
  let f : List Nat := []
  let (x1, s) ← strbuf_create_empty dflt s 16 none
  let buf := x1
  let f := f ++ if (decide (buf ≠ 0)) then [] else [188]
  let f := f ++ if (decide ((cstrOf buf) ≠ 0)) then [] else [189]
  let x2 ← getSize s.mem buf
  let f := f ++ if (decide ((x2 : Int) = 0)) then [] else [190]
  let x3 ← getCap s.mem buf
  let f := f ++ if (decide ((x3 : Int) = 16)) then [] else [191]
  let x4 ← load s.mem ((cstrOf buf) + 0)
  let f := f ++ if (decide (((x4.toNat : Int) : Int) = 0)) then [] else [192]
  let (buf, s) ← ds <| strbuf_destroy s (some buf)
  let f := f ++ if (decide (buf = 0)) then [] else [194]
  .ok f

theorem test_strbuf_create_using_malloc_passes : test_strbuf_create_using_malloc = .ok [] := by decide +kernel

/-- test/test.c line 201: `test_strbuf_create_init`. -/
def test_strbuf_create_init : Res (List Nat) := do
  let lits : List (List Byte) := [[84, 104, 101, 32, 113, 117, 105, 99, 107, 32, 98, 114, 111, 119, 110, 32, 102, 111, 120, 32, 106, 117, 109, 112, 101, 100, 32, 111, 118, 101, 114,
      32, 116, 104, 101, 32, 108, 97, 122, 121, 32, 100, 111, 103]]
  let lit := litAddr lits
  let s := start lits
  let f : List Nat := []
  let x1 ← cstr s.mem (lit 0)
  let (x2, s) ← strbuf_create_init cfg dflt s x1 none
  let buf := x2
  let f := f ++ if (decide (buf ≠ 0)) then [] else [206]
  let f := f ++ if (decide ((cstrOf buf) ≠ 0)) then [] else [207]
  let x3 ← getSize s.mem buf
  let f := f ++ if (decide ((x3 : Int) = (45 - 1))) then [] else [208]
  let x4 ← load s.mem ((cstrOf buf) + (45 - 1))
  let f := f ++ if (decide (((x4.toNat : Int) : Int) = 0)) then [] else [209]
  let (buf, s) ← ds <| strbuf_destroy s (some buf)
  let f := f ++ if (decide (buf = 0)) then [] else [211]
  .ok f

theorem test_strbuf_create_init_passes : test_strbuf_create_init = .ok [] := by decide +kernel

/-- test/test.c line 218: `test_strbuf_create_using_allocator`. -/
def test_strbuf_create_using_allocator : Res (List Nat) := do
  let lits : List (List Byte) := []
  let s := start lits
  let f : List Nat := []
  let (x1, s) ← strbuf_create_empty dflt s 16 (some ⟨0, 5⟩)
  let buf := x1
  let f := f ++ if (decide (buf ≠ 0)) then [] else [224]
  let f := f ++ if (decide ((cstrOf buf) ≠ 0)) then [] else [225]
  let x2 ← getSize s.mem buf
  let f := f ++ if (decide ((x2 : Int) = 0)) then [] else [226]
  let x3 ← getCap s.mem buf
  let f := f ++ if (decide ((x3 : Int) = 16)) then [] else [227]
  let x4 ← load s.mem ((cstrOf buf) + 0)
  let f := f ++ if (decide (((x4.toNat : Int) : Int) = 0)) then [] else [228]
  let (buf, s) ← ds <| strbuf_destroy s (some buf)
  let f := f ++ if (decide (buf = 0)) then [] else [230]
  .ok f

theorem test_strbuf_create_using_allocator_passes : test_strbuf_create_using_allocator = .ok [] := by decide +kernel

/-- test/test.c line 237: `test_strbuf_create_static`. -/
def test_strbuf_create_static : Res (List Nat) := do
  let lits : List (List Byte) := []
  let s := start lits
  let f : List Nat := []
  let (x1, m) ← strbuf_create_fixed s.mem (staticBuf + 3) 200
  let s := { s with mem := m }
  let f := f ++ if (decide (x1 = 0)) then [] else [240]
  let (x2, m) ← strbuf_create_fixed s.mem staticBuf 24
  let s := { s with mem := m }
  let f := f ++ if (decide (x2 = 0)) then [] else [241]
  let (x3, m) ← strbuf_create_fixed s.mem staticBuf 200
  let s := { s with mem := m }
  let buf := x3
  let f := f ++ if (decide (buf ≠ 0)) then [] else [244]
  let f := f ++ if (decide ((cstrOf buf) ≠ 0)) then [] else [245]
  let x4 ← getSize s.mem buf
  let f := f ++ if (decide ((x4 : Int) = 0)) then [] else [246]
  let x5 ← getCap s.mem buf
  let f := f ++ if (decide ((x5 : Int) = ((200 - 24) - 1))) then [] else [247]
  let x6 ← load s.mem ((cstrOf buf) + 0)
  let f := f ++ if (decide (((x6.toNat : Int) : Int) = 0)) then [] else [248]
  let (buf, s) ← ds <| strbuf_destroy s (some buf)
  let f := f ++ if (decide (buf = 0)) then [] else [250]
  .ok f

theorem test_strbuf_create_static_passes : test_strbuf_create_static = .ok [] := by decide +kernel

/-- test/test.c line 763: `test_strbuf_shrink`. -/
def test_strbuf_shrink : Res (List Nat) := do
  let lits : List (List Byte) := [[104, 101, 108, 108, 111, 45, 116, 101, 115, 116]]
  let lit := litAddr lits
  let s := start lits
  let f : List Nat := []
  let (x1, s) ← strbuf_create_empty dflt s 200 none
  let buf := x1
  let x2 ← cstr s.mem (lit 0)
  let (x3, buf, s) ← bo <| strbuf_assign cfg s (some buf) x2
  let (x4, buf, s) ← bo <| strbuf_shrink s (some buf)
  let x5 ← getSize s.mem buf
  let f := f ++ if (decide ((x5 : Int) = 10)) then [] else [768]
  let x6 ← memcmp s.mem (lit 0) (cstrOf buf) (sizeT 10)
  let f := f ++ if (decide (x6 = 0)) then [] else [769]
  let x7 ← getCap s.mem buf
  let f := f ++ if (decide ((x7 : Int) = 10)) then [] else [770]
  let (buf, s) ← ds <| strbuf_destroy s (some buf)
  let f := f ++ if (decide (buf = 0)) then [] else [773]
  let (x8, m) ← strbuf_create_fixed s.mem staticBuf 200
  let s := { s with mem := m }
  let buf := x8
  let x9 ← getCap s.mem buf
  let f := f ++ if (decide ((x9 : Int) = ((200 - 24) - 1))) then [] else [776]
  let x10 ← cstr s.mem (lit 0)
  let (x11, buf, s) ← bo <| strbuf_assign cfg s (some buf) x10
  let (x12, buf, s) ← bo <| strbuf_shrink s (some buf)
  let x13 ← getSize s.mem buf
  let f := f ++ if (decide ((x13 : Int) = 10)) then [] else [779]
  let x14 ← memcmp s.mem (lit 0) (cstrOf buf) (sizeT 10)
  let f := f ++ if (decide (x14 = 0)) then [] else [780]
  let x15 ← getCap s.mem buf
  let f := f ++ if (decide ((x15 : Int) = ((200 - 24) - 1))) then [] else [781]
  let (buf, s) ← ds <| strbuf_destroy s (some buf)
  let f := f ++ if (decide (buf = 0)) then [] else [784]
  .ok f

theorem test_strbuf_shrink_passes : test_strbuf_shrink = .ok [] := by decide +kernel

/-- test/test.c line 1048: `test_strbuf_printf`. -/
def test_strbuf_printf : Res (List Nat) := do
  let lits : List (List Byte) := [[72, 101, 108, 108, 111, 32, 102, 114, 111, 109, 32, 112, 114, 105, 110, 116, 102, 33, 32, 104, 97, 118, 101, 32, 115, 111, 109, 101, 32, 110, 117,
      109, 98, 101, 114, 115, 46, 46, 46, 32, 54, 50, 52, 54, 52, 53, 54, 32, 51, 52, 54, 54, 55, 54, 53, 32, 52, 51, 53, 50, 51, 52, 32, 52, 53, 57,
      56, 55, 53, 54, 32, 57, 52, 53, 55, 50, 32, 54, 57, 32, 52, 50, 53, 57, 55]]
  let lit := litAddr lits
  let s := start lits
  let f : List Nat := []
  let (x1, s) ← strbuf_create_empty dflt s 0 none
  let buf := x1
  let (x2, buf, s) ← bo <| strbuf_printf cfg s (some buf) (fun _ => .text [72, 101, 108, 108, 111, 32, 102, 114, 111, 109, 32, 112, 114, 105, 110, 116, 102, 33, 32, 104, 97, 118, 101, 32, 115, 111, 109, 101, 32, 110, 117, 109, 98, 101, 114, 115, 46, 46, 46, 32, 54, 50, 52, 54, 52, 53, 54, 32, 51, 52, 54, 54, 55, 54, 53, 32, 52, 51, 53, 50, 51, 52, 32, 52, 53, 57, 56, 55, 53, 54, 32, 57, 52, 53, 55, 50, 32, 54, 57, 32, 52, 50, 53, 57, 55])
  let str1 := x2
  let x3 ← memcmp s.mem str1.data (lit 0) (sizeT str1.size)
  let f := f ++ if (decide (x3 = 0)) then [] else [1055]
  let x4 ← getSize s.mem buf
  let x5 ← load s.mem ((cstrOf buf) + x4)
  let f := f ++ if (decide (((x5.toNat : Int) : Int) = 0)) then [] else [1056]
  let (buf, s) ← ds <| strbuf_destroy s (some buf)
  let f := f ++ if (decide (buf = 0)) then [] else [1059]
  .ok f

theorem test_strbuf_printf_passes : test_strbuf_printf = .ok [] := by decide +kernel

/-- test/test.c line 1064: `test_strbuf_append_printf`. -/
def test_strbuf_append_printf : Res (List Nat) := do
  let lits : List (List Byte) := [[72, 101, 108, 108, 111],
    [72, 101, 108, 108, 111, 32, 65, 112, 112, 101, 110, 100, 105, 110, 103, 32, 111, 110, 101, 32, 109, 111, 114, 101, 32, 110, 117, 109, 98, 101, 114,
      32, 55, 52, 56, 57, 50, 49]]
  let lit := litAddr lits
  let s := start lits
  let f : List Nat := []
  let (x1, s) ← strbuf_create_empty dflt s 0 none
  let buf := x1
  let x2 ← cstr s.mem (lit 0)
  let (x3, buf, s) ← bo <| strbuf_assign cfg s (some buf) x2
  let (x4, buf, s) ← bo <| strbuf_append_printf cfg s (some buf) (fun _ => .text [32, 65, 112, 112, 101, 110, 100, 105, 110, 103, 32, 111, 110, 101, 32, 109, 111, 114, 101, 32, 110, 117, 109, 98, 101, 114, 32, 55, 52, 56, 57, 50, 49])
  let str1 := x4
  let x5 ← memcmp s.mem str1.data (lit 1) (sizeT str1.size)
  let f := f ++ if (decide (x5 = 0)) then [] else [1071]
  let x6 ← getSize s.mem buf
  let x7 ← load s.mem ((cstrOf buf) + x6)
  let f := f ++ if (decide (((x7.toNat : Int) : Int) = 0)) then [] else [1072]
  let (buf, s) ← ds <| strbuf_destroy s (some buf)
  let f := f ++ if (decide (buf = 0)) then [] else [1075]
  .ok f

theorem test_strbuf_append_printf_passes : test_strbuf_append_printf = .ok [] := by decide +kernel

/-- test/test.c line 1137: `test_strbuf_assign`. -/
def test_strbuf_assign : Res (List Nat) := do
  let lits : List (List Byte) := [[42, 42, 42, 72, 101, 108, 108, 111, 32, 116, 101, 115, 116, 42, 42, 42],
    [42],
    [72, 101, 108, 108, 111, 32, 116, 101, 115, 116]]
  let lit := litAddr lits
  let s := start lits
  let f : List Nat := []
  let (x1, s) ← strbuf_create_empty dflt s 0 none
  let buf := x1
  let f := f ++ if (decide (buf ≠ 0)) then [] else [1142]
  let x2 ← cstr s.mem (lit 0)
  let (x3, buf, s) ← bo <| strbuf_assign cfg s (some buf) x2
  let str1 := x3
  let x4 ← memcmp s.mem str1.data (lit 0) (sizeT str1.size)
  let f := f ++ if (decide (x4 = 0)) then [] else [1146]
  let x5 ← getSize s.mem buf
  let x6 ← load s.mem ((cstrOf buf) + x5)
  let f := f ++ if (decide (((x6.toNat : Int) : Int) = 0)) then [] else [1147]
  let x7 ← strbuf_view s.mem (some buf)
  let x8 ← cstr s.mem (lit 1)
  let x9 ← strview_trim_strview s.mem x7 x8
  let (x10, buf, s) ← bo <| strbuf_assign cfg s (some buf) x9
  let x11 ← cstr s.mem (lit 2)
  let (x12, buf, s) ← bo <| strbuf_assign cfg s (some buf) x11
  let str1 := x12
  let x13 ← memcmp s.mem str1.data (lit 2) (sizeT str1.size)
  let f := f ++ if (decide (x13 = 0)) then [] else [1152]
  let x14 ← getSize s.mem buf
  let x15 ← load s.mem ((cstrOf buf) + x14)
  let f := f ++ if (decide (((x15.toNat : Int) : Int) = 0)) then [] else [1153]
  let (buf, s) ← ds <| strbuf_destroy s (some buf)
  let f := f ++ if (decide (buf = 0)) then [] else [1156]
  .ok f

theorem test_strbuf_assign_passes : test_strbuf_assign = .ok [] := by decide +kernel

/-- test/test.c line 1351: `test_strbuf_insert_before`. -/
def test_strbuf_insert_before : Res (List Nat) := do
  let lits : List (List Byte) := [[72, 101, 108, 108, 111],
    [],
    [45, 116, 101, 115, 116],
    [72, 101, 108, 108, 111, 45, 116, 101, 115, 116],
    [72, 101, 108, 108, 111, 32, 77, 101, 108, 108, 111, 119],
    [108, 108],
    [46, 46, 46],
    [72, 101, 108, 108, 111, 32, 77, 101, 46, 46, 46, 108, 108, 111, 119],
    [45, 45, 45],
    [72, 101, 45, 45, 45, 108, 108, 111, 32, 77, 101, 108, 108, 111, 119],
    [42, 42, 42],
    [42, 42, 42, 72, 101, 108, 108, 111, 32, 77, 101, 108, 108, 111, 119]]
  let lit := litAddr lits
  let s := start lits
  let f : List Nat := []
  let (x1, s) ← strbuf_create_empty dflt s 0 none
  let buf := x1
  let f := f ++ if (decide (buf ≠ 0)) then [] else [1356]
  let x2 ← cstr s.mem (lit 0)
  let (x3, buf, s) ← bo <| strbuf_assign cfg s (some buf) x2
  let x4 ← strbuf_view s.mem (some buf)
  let x5 ← cstr s.mem (lit 1)
  let x6 ← strview_find_last_strview s.mem x4 x5
  let str1 := x6
  let x7 ← cstr s.mem (lit 2)
  let (x8, buf, s) ← bo <| strbuf_insert_before_strview cfg s (some buf) str1 x7
  let x9 ← getSize s.mem buf
  let x10 ← memcmp s.mem (cstrOf buf) (lit 3) (sizeT x9)
  let f := f ++ if (decide (x10 = 0)) then [] else [1361]
  let x11 ← cstr s.mem (lit 4)
  let (x12, buf, s) ← bo <| strbuf_assign cfg s (some buf) x11
  let x13 ← strbuf_view s.mem (some buf)
  let x14 ← cstr s.mem (lit 5)
  let x15 ← strview_find_last_strview s.mem x13 x14
  let str1 := x15
  let x16 ← cstr s.mem (lit 6)
  let (x17, buf, s) ← bo <| strbuf_insert_before_strview cfg s (some buf) str1 x16
  let x18 ← getSize s.mem buf
  let x19 ← memcmp s.mem (cstrOf buf) (lit 7) (sizeT x18)
  let f := f ++ if (decide (x19 = 0)) then [] else [1366]
  let x20 ← cstr s.mem (lit 4)
  let (x21, buf, s) ← bo <| strbuf_assign cfg s (some buf) x20
  let x22 ← strbuf_view s.mem (some buf)
  let x23 ← cstr s.mem (lit 5)
  let x24 ← strview_find_first_strview s.mem x22 x23
  let str1 := x24
  let x25 ← cstr s.mem (lit 8)
  let (x26, buf, s) ← bo <| strbuf_insert_before_strview cfg s (some buf) str1 x25
  let x27 ← getSize s.mem buf
  let x28 ← memcmp s.mem (cstrOf buf) (lit 9) (sizeT x27)
  let f := f ++ if (decide (x28 = 0)) then [] else [1371]
  let x29 ← cstr s.mem (lit 4)
  let (x30, buf, s) ← bo <| strbuf_assign cfg s (some buf) x29
  let x31 ← strbuf_view s.mem (some buf)
  let x32 ← cstr s.mem (lit 1)
  let x33 ← strview_find_first_strview s.mem x31 x32
  let str1 := x33
  let x34 ← cstr s.mem (lit 10)
  let (x35, buf, s) ← bo <| strbuf_insert_before_strview cfg s (some buf) str1 x34
  let x36 ← getSize s.mem buf
  let x37 ← memcmp s.mem (cstrOf buf) (lit 11) (sizeT x36)
  let f := f ++ if (decide (x37 = 0)) then [] else [1376]
  let x38 ← cstr s.mem (lit 4)
  let (x39, buf, s) ← bo <| strbuf_assign cfg s (some buf) x38
  let x40 ← strbuf_view s.mem (some buf)
  let x41 ← strview_find_last_cstr s.mem x40 (lit 5)
  let str1 := x41
  let (x42, buf, s) ← bo <| strbuf_insert_before_cstr cfg s (some buf) str1 (lit 6)
  let x43 ← getSize s.mem buf
  let x44 ← memcmp s.mem (cstrOf buf) (lit 7) (sizeT x43)
  let f := f ++ if (decide (x44 = 0)) then [] else [1381]
  let (buf, s) ← ds <| strbuf_destroy s (some buf)
  let f := f ++ if (decide (buf = 0)) then [] else [1384]
  .ok f

theorem test_strbuf_insert_before_passes : test_strbuf_insert_before = .ok [] := by decide +kernel

/-- test/test.c line 1389: `test_strbuf_insert_after`. -/
def test_strbuf_insert_after : Res (List Nat) := do
  let lits : List (List Byte) := [[72, 101, 108, 108, 111],
    [],
    [45, 116, 101, 115, 116],
    [72, 101, 108, 108, 111, 45, 116, 101, 115, 116],
    [72, 101, 108, 108, 111, 32, 77, 101, 108, 108, 111, 119],
    [108, 108],
    [46, 46, 46],
    [72, 101, 108, 108, 111, 32, 77, 101, 108, 108, 46, 46, 46, 111, 119],
    [45, 45, 45],
    [72, 101, 108, 108, 45, 45, 45, 111, 32, 77, 101, 108, 108, 111, 119],
    [42, 42, 42],
    [42, 42, 42, 72, 101, 108, 108, 111, 32, 77, 101, 108, 108, 111, 119]]
  let lit := litAddr lits
  let s := start lits
  let f : List Nat := []
  let (x1, s) ← strbuf_create_empty dflt s 0 none
  let buf := x1
  let f := f ++ if (decide (buf ≠ 0)) then [] else [1394]
  let x2 ← cstr s.mem (lit 0)
  let (x3, buf, s) ← bo <| strbuf_assign cfg s (some buf) x2
  let x4 ← strbuf_view s.mem (some buf)
  let x5 ← cstr s.mem (lit 1)
  let x6 ← strview_find_last_strview s.mem x4 x5
  let str1 := x6
  let x7 ← cstr s.mem (lit 2)
  let (x8, buf, s) ← bo <| strbuf_insert_after_strview cfg s (some buf) str1 x7
  let x9 ← getSize s.mem buf
  let x10 ← memcmp s.mem (cstrOf buf) (lit 3) (sizeT x9)
  let f := f ++ if (decide (x10 = 0)) then [] else [1399]
  let x11 ← cstr s.mem (lit 4)
  let (x12, buf, s) ← bo <| strbuf_assign cfg s (some buf) x11
  let x13 ← strbuf_view s.mem (some buf)
  let x14 ← cstr s.mem (lit 5)
  let x15 ← strview_find_last_strview s.mem x13 x14
  let str1 := x15
  let x16 ← cstr s.mem (lit 6)
  let (x17, buf, s) ← bo <| strbuf_insert_after_strview cfg s (some buf) str1 x16
  let x18 ← getSize s.mem buf
  let x19 ← memcmp s.mem (cstrOf buf) (lit 7) (sizeT x18)
  let f := f ++ if (decide (x19 = 0)) then [] else [1404]
  let x20 ← cstr s.mem (lit 4)
  let (x21, buf, s) ← bo <| strbuf_assign cfg s (some buf) x20
  let x22 ← strbuf_view s.mem (some buf)
  let x23 ← cstr s.mem (lit 5)
  let x24 ← strview_find_first_strview s.mem x22 x23
  let str1 := x24
  let x25 ← cstr s.mem (lit 8)
  let (x26, buf, s) ← bo <| strbuf_insert_after_strview cfg s (some buf) str1 x25
  let x27 ← getSize s.mem buf
  let x28 ← memcmp s.mem (cstrOf buf) (lit 9) (sizeT x27)
  let f := f ++ if (decide (x28 = 0)) then [] else [1409]
  let x29 ← cstr s.mem (lit 4)
  let (x30, buf, s) ← bo <| strbuf_assign cfg s (some buf) x29
  let x31 ← strbuf_view s.mem (some buf)
  let x32 ← cstr s.mem (lit 1)
  let x33 ← strview_find_first_strview s.mem x31 x32
  let str1 := x33
  let x34 ← cstr s.mem (lit 10)
  let (x35, buf, s) ← bo <| strbuf_insert_after_strview cfg s (some buf) str1 x34
  let x36 ← getSize s.mem buf
  let x37 ← memcmp s.mem (cstrOf buf) (lit 11) (sizeT x36)
  let f := f ++ if (decide (x37 = 0)) then [] else [1414]
  let x38 ← cstr s.mem (lit 4)
  let (x39, buf, s) ← bo <| strbuf_assign cfg s (some buf) x38
  let x40 ← strbuf_view s.mem (some buf)
  let x41 ← strview_find_last_cstr s.mem x40 (lit 5)
  let str1 := x41
  let (x42, buf, s) ← bo <| strbuf_insert_after_cstr cfg s (some buf) str1 (lit 6)
  let x43 ← getSize s.mem buf
  let x44 ← memcmp s.mem (cstrOf buf) (lit 7) (sizeT x43)
  let f := f ++ if (decide (x44 = 0)) then [] else [1419]
  let (buf, s) ← ds <| strbuf_destroy s (some buf)
  let f := f ++ if (decide (buf = 0)) then [] else [1422]
  .ok f

theorem test_strbuf_insert_after_passes : test_strbuf_insert_after = .ok [] := by decide +kernel

/-- test/test.c line 1427: `test_strbuf_to_cstr`. -/
def test_strbuf_to_cstr : Res (List Nat) := do
  let lits : List (List Byte) := [[83, 111, 109, 101, 32, 116, 101, 115, 116, 32, 115, 116, 114, 105, 110, 103, 32, 105, 110, 32, 97, 32, 100, 121, 110, 97, 109, 105, 99, 32, 98, 117,
      102, 102, 101, 114, 44, 32, 104, 101, 108, 108, 111, 32, 116, 101, 115, 116, 46],
    [83, 111, 109, 101, 32, 116, 101, 115, 116, 32, 115, 116, 114, 105, 110, 103, 32, 105, 110, 32, 97, 32, 115, 116, 97, 116, 105, 99, 32, 98, 117, 102,
      102, 101, 114, 44, 32, 104, 101, 108, 108, 111, 32, 116, 101, 115, 116, 46]]
  let lit := litAddr lits
  let s := start lits
  let f : List Nat := []
  let (x1, s) ← strbuf_create_empty dflt s 0 none
  let dbuf := x1
  let (x2, m) ← strbuf_create_fixed s.mem staticBuf 200
  let s := { s with mem := m }
  let sbuf := x2
  let x3 ← cstr s.mem (lit 0)
  let (x4, dbuf, s) ← bo <| strbuf_assign cfg s (some dbuf) x3
  let x5 ← cstr s.mem (lit 1)
  let (x6, sbuf, s) ← bo <| strbuf_assign cfg s (some sbuf) x5
  let (x7, dbuf, s) ← tc <| strbuf_to_cstr cfg s (some dbuf)
  let dstr := x7
  let (x8, sbuf, s) ← tc <| strbuf_to_cstr cfg s (some sbuf)
  let sstr := x8
  let f := f ++ if (decide ((dbuf : Int) = 0)) then [] else [1439]
  let f := f ++ if (decide ((sbuf : Int) = 0)) then [] else [1440]
  let x9 ← strcmp s.mem dstr (lit 0)
  let f := f ++ if (decide (x9 = 0)) then [] else [1442]
  let x10 ← strcmp s.mem sstr (lit 1)
  let f := f ++ if (decide (x10 = 0)) then [] else [1443]
  let (_, s) ← allocCall s dflt dstr 0
  .ok f

theorem test_strbuf_to_cstr_passes : test_strbuf_to_cstr = .ok [] := by decide +kernel

end CStr.Conform
