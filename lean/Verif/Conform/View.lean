import Verif.Conform.Base
/-! Unit tests of the project in the model: see `Conform/Base.lean`. Generated from test/test.c. -/
set_option linter.unusedVariables false
namespace CStr.Conform
open CStr

/-- test/test.c line 319: `test_strview_sub`. -/
def test_strview_sub : Res (List Nat) := do
  let lits : List (List Byte) := [[66, 69, 70, 79, 82, 69, 45, 65, 65, 65, 65, 65, 65, 65, 65, 65, 65, 66, 66, 66, 66, 66, 66, 66, 66, 66, 66, 67, 67, 67, 67, 67, 67, 67, 67, 67, 67,
      45, 65, 70, 84, 69, 82],
    [66, 66, 66, 66, 66, 66, 66, 66, 66, 66],
    [66, 69, 70, 79, 82, 69],
    [65, 70, 84, 69, 82]]
  let lit := litAddr lits
  let s := start lits
  let f : List Nat := []
  let x1 ← cstr s.mem (lit 0)
  let str1 := x1
  let x2 ← strview_sub str1 17 27
  let str1 := x2
  let f := f ++ if (decide ((str1.size : Int) = 10)) then [] else [325]
  let x3 ← memcmp s.mem (lit 1) str1.data (sizeT str1.size)
  let f := f ++ if (decide (x3 = 0)) then [] else [326]
  let x4 ← cstr s.mem (lit 0)
  let str1 := x4
  let x5 ← strview_sub str1 0 6
  let str1 := x5
  let f := f ++ if (decide ((str1.size : Int) = 6)) then [] else [331]
  let x6 ← memcmp s.mem (lit 2) str1.data (sizeT str1.size)
  let f := f ++ if (decide (x6 = 0)) then [] else [332]
  let x7 ← cstr s.mem (lit 0)
  let str1 := x7
  let x8 ← strview_sub str1 (-5) 2147483647
  let str1 := x8
  let f := f ++ if (decide ((str1.size : Int) = 5)) then [] else [337]
  let x9 ← memcmp s.mem str1.data (lit 3) (sizeT str1.size)
  let f := f ++ if (decide (x9 = 0)) then [] else [338]
  .ok f

theorem test_strview_sub_passes : test_strview_sub = .ok [] := by decide +kernel

/-- test/test.c line 344: `test_strview_sub_edge_cases`. -/
def test_strview_sub_edge_cases : Res (List Nat) := do
  let lits : List (List Byte) := [[88],
    []]
  let lit := litAddr lits
  let s := start lits
  let f : List Nat := []
  let x1 ← cstr s.mem (lit 0)
  let x2 ← strview_sub x1 0 0
  let str1 := x2
  let f := f ++ if (strview_is_valid str1) then [] else [348]
  let f := f ++ if (decide ((str1.size : Int) = 0)) then [] else [349]
  let x3 ← load s.mem (str1.data + 0)
  let f := f ++ if (decide (((x3.toNat : Int) : Int) = 88)) then [] else [350]
  let x4 ← cstr s.mem (lit 0)
  let x5 ← strview_sub x4 (-1) (-1)
  let str1 := x5
  let f := f ++ if (strview_is_valid str1) then [] else [353]
  let f := f ++ if (decide ((str1.size : Int) = 0)) then [] else [354]
  let x6 ← load s.mem (str1.data + 0)
  let f := f ++ if (decide (((x6.toNat : Int) : Int) = 88)) then [] else [355]
  let x7 ← cstr s.mem (lit 0)
  let x8 ← strview_sub x7 0 (-1)
  let str1 := x8
  let f := f ++ if (strview_is_valid str1) then [] else [358]
  let f := f ++ if (decide ((str1.size : Int) = 0)) then [] else [359]
  let x9 ← load s.mem (str1.data + 0)
  let f := f ++ if (decide (((x9.toNat : Int) : Int) = 88)) then [] else [360]
  let x10 ← cstr s.mem (lit 0)
  let x11 ← strview_sub x10 (-1) 0
  let str1 := x11
  let f := f ++ if (strview_is_valid str1) then [] else [363]
  let f := f ++ if (decide ((str1.size : Int) = 0)) then [] else [364]
  let x12 ← load s.mem (str1.data + 0)
  let f := f ++ if (decide (((x12.toNat : Int) : Int) = 88)) then [] else [365]
  let x13 ← cstr s.mem (lit 0)
  let x14 ← strview_sub x13 1 0
  let str1 := x14
  let f := f ++ if (!(strview_is_valid str1)) then [] else [368]
  let f := f ++ if (decide ((str1.size : Int) = 0)) then [] else [369]
  let x15 ← cstr s.mem (lit 0)
  let x16 ← strview_sub x15 1 (-1)
  let str1 := x16
  let f := f ++ if (!(strview_is_valid str1)) then [] else [372]
  let f := f ++ if (decide ((str1.size : Int) = 0)) then [] else [373]
  let x17 ← cstr s.mem (lit 1)
  let x18 ← strview_sub x17 0 0
  let str1 := x18
  let f := f ++ if (strview_is_valid str1) then [] else [376]
  let f := f ++ if (decide ((str1.size : Int) = 0)) then [] else [377]
  let x19 ← cstr s.mem (lit 1)
  let x20 ← strview_sub x19 (-1) (-1)
  let str1 := x20
  let f := f ++ if (strview_is_valid str1) then [] else [380]
  let f := f ++ if (decide ((str1.size : Int) = 0)) then [] else [381]
  let x21 ← cstr s.mem (lit 1)
  let x22 ← strview_sub x21 (-1) 0
  let str1 := x22
  let f := f ++ if (strview_is_valid str1) then [] else [384]
  let f := f ++ if (decide ((str1.size : Int) = 0)) then [] else [385]
  let x23 ← cstr s.mem (lit 1)
  let x24 ← strview_sub x23 0 (-1)
  let str1 := x24
  let f := f ++ if (strview_is_valid str1) then [] else [388]
  let f := f ++ if (decide ((str1.size : Int) = 0)) then [] else [389]
  .ok f

theorem test_strview_sub_edge_cases_passes : test_strview_sub_edge_cases = .ok [] := by decide +kernel

/-- test/test.c line 394: `test_strview_split_first_delim`. -/
def test_strview_split_first_delim : Res (List Nat) := do
  let lits : List (List Byte) := [[49, 50, 51, 47, 52, 53, 54, 47, 55, 56, 57],
    [47],
    [49, 50, 51],
    [52, 53, 54],
    [55, 56, 57],
    [97, 98, 34, 46, 34, 99, 46, 100, 34, 97, 46, 34, 101, 102, 46, 103, 104, 34, 46, 97, 34, 105],
    [46],
    [97, 98, 34, 46, 34, 99],
    [100, 34, 97, 46, 34, 101, 102],
    [103, 104, 34, 46, 97, 34, 105]]
  let lit := litAddr lits
  let s := start lits
  let f : List Nat := []
  let x1 ← cstr s.mem (lit 0)
  let str2 := x1
  let (x2, str2) ← sp <| strview_split_first_delim s.mem (some str2) (lit 1) false
  let str1 := x2
  let x3 ← memcmp s.mem (lit 2) str1.data (sizeT str1.size)
  let f := f ++ if (decide (x3 = 0)) then [] else [400]
  let (x4, str2) ← sp <| strview_split_first_delim s.mem (some str2) (lit 1) false
  let str1 := x4
  let x5 ← memcmp s.mem (lit 3) str1.data (sizeT str1.size)
  let f := f ++ if (decide (x5 = 0)) then [] else [402]
  let (x6, str2) ← sp <| strview_split_first_delim s.mem (some str2) (lit 1) false
  let str1 := x6
  let x7 ← memcmp s.mem (lit 4) str1.data (sizeT str1.size)
  let f := f ++ if (decide (x7 = 0)) then [] else [404]
  let f := f ++ if (!(strview_is_valid str2)) then [] else [405]
  let x8 ← cstr s.mem (lit 5)
  let str2 := x8
  let (x9, str2) ← sp <| strview_split_first_delim s.mem (some str2) (lit 6) true
  let str1 := x9
  let x10 ← memcmp s.mem (lit 7) str1.data (sizeT str1.size)
  let f := f ++ if (decide (x10 = 0)) then [] else [411]
  let (x11, str2) ← sp <| strview_split_first_delim s.mem (some str2) (lit 6) true
  let str1 := x11
  let x12 ← memcmp s.mem (lit 8) str1.data (sizeT str1.size)
  let f := f ++ if (decide (x12 = 0)) then [] else [413]
  let (x13, str2) ← sp <| strview_split_first_delim s.mem (some str2) (lit 6) true
  let str1 := x13
  let x14 ← memcmp s.mem (lit 9) str1.data (sizeT str1.size)
  let f := f ++ if (decide (x14 = 0)) then [] else [415]
  let f := f ++ if (!(strview_is_valid str2)) then [] else [416]
  .ok f

theorem test_strview_split_first_delim_passes : test_strview_split_first_delim = .ok [] := by decide +kernel

/-- test/test.c line 422: `test_strview_split_all`. -/
def test_strview_split_all : Res (List Nat) := do
  let lits : List (List Byte) := [[49, 50, 51, 47, 52, 53, 54, 47, 55, 56, 57],
    [47],
    [49, 50, 51],
    [52, 53, 54],
    [55, 56, 57]]
  let lit := litAddr lits
  let s := start lits
  let f : List Nat := []
  let dst := [View.invalid, .invalid, .invalid, .invalid]
  let x1 ← cstr s.mem (lit 0)
  let (x2, dst) ← strview_split_all s.mem 2 dst x1 (lit 1) false
  let count := (x2 : Int)
  let f := f ++ if (decide ((count : Int) = 2)) then [] else [428]
  let x3 ← memcmp s.mem (lit 2) (at_ dst 0).data (sizeT (at_ dst 0).size)
  let f := f ++ if (decide (x3 = 0)) then [] else [429]
  let x4 ← memcmp s.mem (lit 3) (at_ dst 1).data (sizeT (at_ dst 1).size)
  let f := f ++ if (decide (x4 = 0)) then [] else [430]
  let f := f ++ if (!(strview_is_valid (at_ dst 2))) then [] else [431]
  let dst := [View.invalid, .invalid, .invalid, .invalid]
  let x5 ← cstr s.mem (lit 0)
  let (x6, dst) ← strview_split_all s.mem 4 dst x5 (lit 1) false
  let count := (x6 : Int)
  let f := f ++ if (decide ((count : Int) = 3)) then [] else [435]
  let x7 ← memcmp s.mem (lit 2) (at_ dst 0).data (sizeT (at_ dst 0).size)
  let f := f ++ if (decide (x7 = 0)) then [] else [436]
  let x8 ← memcmp s.mem (lit 3) (at_ dst 1).data (sizeT (at_ dst 1).size)
  let f := f ++ if (decide (x8 = 0)) then [] else [437]
  let x9 ← memcmp s.mem (lit 4) (at_ dst 2).data (sizeT (at_ dst 2).size)
  let f := f ++ if (decide (x9 = 0)) then [] else [438]
  let dst := [View.invalid, .invalid, .invalid, .invalid]
  let (x10, dst) ← strview_split_all s.mem 4 dst View.invalid (lit 1) false
  let count := (x10 : Int)
  let f := f ++ if (decide ((count : Int) = 0)) then [] else [442]
  let f := f ++ if (!(strview_is_valid (at_ dst 0))) then [] else [443]
  let x11 ← cstr s.mem (lit 0)
  let (x12, dst) ← strview_split_all s.mem 4 dst x11 (lit 1) false
  let count := (x12 : Int)
  let f := f ++ if (decide ((count : Int) = 3)) then [] else [446]
  let x13 ← memcmp s.mem (lit 2) (at_ dst 0).data (sizeT (at_ dst 0).size)
  let f := f ++ if (decide (x13 = 0)) then [] else [447]
  let x14 ← memcmp s.mem (lit 3) (at_ dst 1).data (sizeT (at_ dst 1).size)
  let f := f ++ if (decide (x14 = 0)) then [] else [448]
  let x15 ← memcmp s.mem (lit 4) (at_ dst 2).data (sizeT (at_ dst 2).size)
  let f := f ++ if (decide (x15 = 0)) then [] else [449]
  .ok f

theorem test_strview_split_all_passes : test_strview_split_all = .ok [] := by decide +kernel

/-- test/test.c line 456: `test_strview_split_first_delim_edge_cases`. -/
def test_strview_split_first_delim_edge_cases : Res (List Nat) := do
  let lits : List (List Byte) := [[47, 52, 53, 54, 47, 55, 56, 57, 47],
    [47],
    [52, 53, 54, 47, 55, 56, 57, 47],
    [52, 53, 54],
    [55, 56, 57, 47],
    [55, 56, 57],
    [110, 111, 45, 100, 101, 108, 105, 109, 115]]
  let lit := litAddr lits
  let s := start lits
  let f : List Nat := []
  let x1 ← cstr s.mem (lit 0)
  let str2 := x1
  let (x2, str2) ← sp <| strview_split_first_delim s.mem (some str2) (lit 1) false
  let str1 := x2
  let f := f ++ if (decide ((str1.size : Int) = 0)) then [] else [462]
  let f := f ++ if (decide (str1.data ≠ 0)) then [] else [463]
  let f := f ++ if (decide ((str2.size : Int) = 8)) then [] else [464]
  let x3 ← memcmp s.mem (lit 2) str2.data (sizeT str2.size)
  let f := f ++ if (decide (x3 = 0)) then [] else [465]
  let (x4, str2) ← sp <| strview_split_first_delim s.mem (some str2) (lit 1) false
  let str1 := x4
  let f := f ++ if (decide ((str1.size : Int) = 3)) then [] else [468]
  let x5 ← memcmp s.mem (lit 3) str1.data (sizeT str1.size)
  let f := f ++ if (decide (x5 = 0)) then [] else [469]
  let f := f ++ if (decide ((str2.size : Int) = 4)) then [] else [470]
  let x6 ← memcmp s.mem (lit 4) str2.data (sizeT str2.size)
  let f := f ++ if (decide (x6 = 0)) then [] else [471]
  let (x7, str2) ← sp <| strview_split_first_delim s.mem (some str2) (lit 1) false
  let str1 := x7
  let f := f ++ if (decide ((str1.size : Int) = 3)) then [] else [474]
  let x8 ← memcmp s.mem (lit 5) str1.data (sizeT str1.size)
  let f := f ++ if (decide (x8 = 0)) then [] else [475]
  let f := f ++ if (decide ((str2.size : Int) = 0)) then [] else [476]
  let f := f ++ if (decide (str2.data ≠ 0)) then [] else [477]
  let (x9, str2) ← sp <| strview_split_first_delim s.mem (some str2) (lit 1) false
  let str1 := x9
  let f := f ++ if (decide ((str1.size : Int) = 0)) then [] else [480]
  let f := f ++ if (decide (str1.data ≠ 0)) then [] else [481]
  let f := f ++ if (decide ((str2.size : Int) = 0)) then [] else [482]
  let f := f ++ if (decide ((str2.data : Int) = 0)) then [] else [483]
  let x10 ← cstr s.mem (lit 6)
  let str2 := x10
  let (x11, str2) ← sp <| strview_split_first_delim s.mem (some str2) (lit 1) false
  let str1 := x11
  let f := f ++ if (decide (str1.data ≠ 0)) then [] else [487]
  let f := f ++ if (decide ((str1.size : Int) = (10 - 1))) then [] else [488]
  let f := f ++ if (decide ((str2.data : Int) = 0)) then [] else [489]
  let f := f ++ if (decide ((str2.size : Int) = 0)) then [] else [490]
  .ok f

theorem test_strview_split_first_delim_edge_cases_passes : test_strview_split_first_delim_edge_cases = .ok [] := by decide +kernel

/-- test/test.c line 496: `test_strview_split_last_delim`. -/
def test_strview_split_last_delim : Res (List Nat) := do
  let lits : List (List Byte) := [[49, 50, 51, 47, 52, 53, 54, 47, 55, 56, 57],
    [47],
    [55, 56, 57],
    [49, 50, 51, 47, 52, 53, 54],
    [52, 53, 54],
    [49, 50, 51],
    [97, 98, 34, 46, 34, 99, 46, 100, 34, 97, 46, 34, 101, 102, 46, 103, 104, 34, 46, 97, 34, 105],
    [46],
    [103, 104, 34, 46, 97, 34, 105],
    [100, 34, 97, 46, 34, 101, 102],
    [97, 98, 34, 46, 34, 99]]
  let lit := litAddr lits
  let s := start lits
  let f : List Nat := []
  let x1 ← cstr s.mem (lit 0)
  let str2 := x1
  let (x2, str2) ← sp <| strview_split_last_delim s.mem (some str2) (lit 1) false
  let str1 := x2
  let f := f ++ if (decide ((str1.size : Int) = 3)) then [] else [501]
  let x3 ← memcmp s.mem (lit 2) str1.data (sizeT str1.size)
  let f := f ++ if (decide (x3 = 0)) then [] else [502]
  let f := f ++ if (decide ((str2.size : Int) = 7)) then [] else [503]
  let x4 ← memcmp s.mem (lit 3) str2.data (sizeT str2.size)
  let f := f ++ if (decide (x4 = 0)) then [] else [504]
  let (x5, str2) ← sp <| strview_split_last_delim s.mem (some str2) (lit 1) false
  let str1 := x5
  let f := f ++ if (decide ((str1.size : Int) = 3)) then [] else [507]
  let x6 ← memcmp s.mem (lit 4) str1.data (sizeT str1.size)
  let f := f ++ if (decide (x6 = 0)) then [] else [508]
  let f := f ++ if (decide ((str2.size : Int) = 3)) then [] else [509]
  let x7 ← memcmp s.mem (lit 5) str2.data (sizeT str2.size)
  let f := f ++ if (decide (x7 = 0)) then [] else [510]
  let x8 ← cstr s.mem (lit 6)
  let str2 := x8
  let (x9, str2) ← sp <| strview_split_last_delim s.mem (some str2) (lit 7) true
  let str1 := x9
  let x10 ← memcmp s.mem (lit 8) str1.data (sizeT str1.size)
  let f := f ++ if (decide (x10 = 0)) then [] else [516]
  let (x11, str2) ← sp <| strview_split_last_delim s.mem (some str2) (lit 7) true
  let str1 := x11
  let x12 ← memcmp s.mem (lit 9) str1.data (sizeT str1.size)
  let f := f ++ if (decide (x12 = 0)) then [] else [518]
  let (x13, str2) ← sp <| strview_split_last_delim s.mem (some str2) (lit 7) true
  let str1 := x13
  let x14 ← memcmp s.mem (lit 10) str1.data (sizeT str1.size)
  let f := f ++ if (decide (x14 = 0)) then [] else [520]
  let f := f ++ if (!(strview_is_valid str2)) then [] else [522]
  .ok f

theorem test_strview_split_last_delim_passes : test_strview_split_last_delim = .ok [] := by decide +kernel

/-- test/test.c line 528: `test_strview_split_last_delim_edge_cases`. -/
def test_strview_split_last_delim_edge_cases : Res (List Nat) := do
  let lits : List (List Byte) := [[47, 52, 53, 54, 47, 55, 56, 57, 47],
    [47],
    [47, 52, 53, 54, 47, 55, 56, 57],
    [55, 56, 57],
    [47, 52, 53, 54],
    [52, 53, 54]]
  let lit := litAddr lits
  let s := start lits
  let f : List Nat := []
  let x1 ← cstr s.mem (lit 0)
  let str2 := x1
  let (x2, str2) ← sp <| strview_split_last_delim s.mem (some str2) (lit 1) false
  let str1 := x2
  let f := f ++ if (decide ((str1.size : Int) = 0)) then [] else [534]
  let f := f ++ if (decide (str1.data ≠ 0)) then [] else [535]
  let f := f ++ if (decide ((str2.size : Int) = 8)) then [] else [536]
  let x3 ← memcmp s.mem (lit 2) str2.data (sizeT str2.size)
  let f := f ++ if (decide (x3 = 0)) then [] else [537]
  let (x4, str2) ← sp <| strview_split_last_delim s.mem (some str2) (lit 1) false
  let str1 := x4
  let f := f ++ if (decide ((str1.size : Int) = 3)) then [] else [540]
  let x5 ← memcmp s.mem (lit 3) str1.data (sizeT str1.size)
  let f := f ++ if (decide (x5 = 0)) then [] else [541]
  let f := f ++ if (decide ((str2.size : Int) = 4)) then [] else [542]
  let x6 ← memcmp s.mem (lit 4) str2.data (sizeT str2.size)
  let f := f ++ if (decide (x6 = 0)) then [] else [543]
  let (x7, str2) ← sp <| strview_split_last_delim s.mem (some str2) (lit 1) false
  let str1 := x7
  let f := f ++ if (decide ((str1.size : Int) = 3)) then [] else [546]
  let x8 ← memcmp s.mem (lit 5) str1.data (sizeT str1.size)
  let f := f ++ if (decide (x8 = 0)) then [] else [547]
  let f := f ++ if (decide ((str2.size : Int) = 0)) then [] else [548]
  let f := f ++ if (decide (str2.data ≠ 0)) then [] else [549]
  let (x9, str2) ← sp <| strview_split_last_delim s.mem (some str2) (lit 1) false
  let str1 := x9
  let f := f ++ if (decide ((str1.size : Int) = 0)) then [] else [552]
  let f := f ++ if (decide (str1.data ≠ 0)) then [] else [553]
  let f := f ++ if (decide ((str2.size : Int) = 0)) then [] else [554]
  let f := f ++ if (decide ((str2.data : Int) = 0)) then [] else [555]
  .ok f

theorem test_strview_split_last_delim_edge_cases_passes : test_strview_split_last_delim_edge_cases = .ok [] := by decide +kernel

/-- test/test.c line 561: `test_strview_find_first`. -/
def test_strview_find_first : Res (List Nat) := do
  let lits : List (List Byte) := [[110, 101, 101, 100, 108, 101],
    [110, 101, 101, 100, 108, 101, 110, 101, 101, 100, 108, 101],
    [110, 101, 101, 100, 108, 110, 101, 101, 100, 108, 101]]
  let lit := litAddr lits
  let s := start lits
  let f : List Nat := []
  let x1 ← cstr s.mem (lit 0)
  let str1 := x1
  let x2 ← cstr s.mem (lit 0)
  let str2 := x2
  let x3 ← strview_find_first_strview s.mem str1 str2
  let search_result := x3
  let f := f ++ if (strview_is_valid search_result) then [] else [567]
  let f := f ++ if (decide (((search_result.data - str1.data) : Int) = 0)) then [] else [568]
  let x4 ← cstr s.mem (lit 0)
  let str1 := x4
  let x5 ← strview_find_first_cstr s.mem str1 (lit 0)
  let search_result := x5
  let f := f ++ if (strview_is_valid search_result) then [] else [572]
  let f := f ++ if (decide (((search_result.data - str1.data) : Int) = 0)) then [] else [573]
  let x6 ← cstr s.mem (lit 1)
  let str1 := x6
  let x7 ← cstr s.mem (lit 0)
  let str2 := x7
  let x8 ← strview_find_first_strview s.mem str1 str2
  let search_result := x8
  let f := f ++ if (strview_is_valid search_result) then [] else [578]
  let f := f ++ if (decide (((search_result.data - str1.data) : Int) = 0)) then [] else [579]
  let x9 ← cstr s.mem (lit 2)
  let str1 := x9
  let x10 ← cstr s.mem (lit 0)
  let str2 := x10
  let x11 ← strview_find_first_strview s.mem str1 str2
  let search_result := x11
  let f := f ++ if (strview_is_valid search_result) then [] else [584]
  let f := f ++ if (decide (((search_result.data - str1.data) : Int) = 5)) then [] else [585]
  .ok f

theorem test_strview_find_first_passes : test_strview_find_first = .ok [] := by decide +kernel

/-- test/test.c line 590: `test_strview_find_first_nocase`. -/
def test_strview_find_first_nocase : Res (List Nat) := do
  let lits : List (List Byte) := [[110, 69, 101, 100, 108, 101],
    [110, 101, 101, 68, 108, 101],
    [78, 101, 101, 100, 108, 101],
    [110, 101, 101, 100, 108, 69],
    [110, 101, 69, 68, 108, 101, 110, 101, 69, 100, 108, 69],
    [110, 101, 101, 100, 76, 110, 101, 101, 100, 76, 101],
    [110, 101, 101, 100, 108, 101]]
  let lit := litAddr lits
  let s := start lits
  let f : List Nat := []
  let x1 ← cstr s.mem (lit 0)
  let str1 := x1
  let x2 ← cstr s.mem (lit 1)
  let str2 := x2
  let x3 ← strview_find_first_nocase_strview s.mem str1 str2
  let search_result := x3
  let f := f ++ if (strview_is_valid search_result) then [] else [596]
  let f := f ++ if (decide (((search_result.data - str1.data) : Int) = 0)) then [] else [597]
  let x4 ← cstr s.mem (lit 2)
  let str1 := x4
  let x5 ← strview_find_first_nocase_cstr s.mem str1 (lit 3)
  let search_result := x5
  let f := f ++ if (strview_is_valid search_result) then [] else [601]
  let f := f ++ if (decide (((search_result.data - str1.data) : Int) = 0)) then [] else [602]
  let x6 ← cstr s.mem (lit 4)
  let str1 := x6
  let x7 ← cstr s.mem (lit 2)
  let str2 := x7
  let x8 ← strview_find_first_nocase_strview s.mem str1 str2
  let search_result := x8
  let f := f ++ if (strview_is_valid search_result) then [] else [607]
  let f := f ++ if (decide (((search_result.data - str1.data) : Int) = 0)) then [] else [608]
  let x9 ← cstr s.mem (lit 5)
  let str1 := x9
  let x10 ← cstr s.mem (lit 6)
  let str2 := x10
  let x11 ← strview_find_first_nocase_strview s.mem str1 str2
  let search_result := x11
  let f := f ++ if (strview_is_valid search_result) then [] else [613]
  let f := f ++ if (decide (((search_result.data - str1.data) : Int) = 5)) then [] else [614]
  .ok f

theorem test_strview_find_first_nocase_passes : test_strview_find_first_nocase = .ok [] := by decide +kernel

/-- test/test.c line 619: `test_strview_find_first_edge_cases`. -/
def test_strview_find_first_edge_cases : Res (List Nat) := do
  let lits : List (List Byte) := [[104, 97, 121, 115, 116, 97, 99, 107],
    []]
  let lit := litAddr lits
  let s := start lits
  let f : List Nat := []
  let x1 ← cstr s.mem (lit 0)
  let str1 := x1
  let x2 ← cstr s.mem (lit 1)
  let str2 := x2
  let x3 ← strview_find_first_strview s.mem str1 str2
  let search_result := x3
  let f := f ++ if (strview_is_valid search_result) then [] else [625]
  let f := f ++ if (decide (((search_result.data - str1.data) : Int) = 0)) then [] else [626]
  let str2 := View.invalid
  let x4 ← strview_find_first_strview s.mem str1 str2
  let search_result := x4
  let f := f ++ if (!(strview_is_valid search_result)) then [] else [630]
  let str1 := View.invalid
  let x5 ← cstr s.mem (lit 1)
  let str2 := x5
  let x6 ← strview_find_first_strview s.mem str1 str2
  let search_result := x6
  let f := f ++ if (!(strview_is_valid search_result)) then [] else [635]
  let x7 ← cstr s.mem (lit 1)
  let str1 := x7
  let x8 ← cstr s.mem (lit 1)
  let str2 := x8
  let x9 ← strview_find_first_strview s.mem str1 str2
  let search_result := x9
  let f := f ++ if (strview_is_valid search_result) then [] else [640]
  let f := f ++ if (decide (((search_result.data - str1.data) : Int) = 0)) then [] else [641]
  .ok f

theorem test_strview_find_first_edge_cases_passes : test_strview_find_first_edge_cases = .ok [] := by decide +kernel

/-- test/test.c line 647: `test_strview_find_last`. -/
def test_strview_find_last : Res (List Nat) := do
  let lits : List (List Byte) := [[110, 101, 101, 100, 108, 101],
    [110, 101, 101, 100, 108, 101, 110, 101, 101, 100, 108, 101],
    [110, 101, 101, 100, 108, 110, 101, 101, 100, 108, 101]]
  let lit := litAddr lits
  let s := start lits
  let f : List Nat := []
  let x1 ← cstr s.mem (lit 0)
  let str1 := x1
  let x2 ← cstr s.mem (lit 0)
  let str2 := x2
  let x3 ← strview_find_last_strview s.mem str1 str2
  let search_result := x3
  let f := f ++ if (strview_is_valid search_result) then [] else [653]
  let f := f ++ if (decide (((search_result.data - str1.data) : Int) = 0)) then [] else [654]
  let x4 ← cstr s.mem (lit 0)
  let str1 := x4
  let x5 ← strview_find_last_cstr s.mem str1 (lit 0)
  let search_result := x5
  let f := f ++ if (strview_is_valid search_result) then [] else [658]
  let f := f ++ if (decide (((search_result.data - str1.data) : Int) = 0)) then [] else [659]
  let x6 ← cstr s.mem (lit 1)
  let str1 := x6
  let x7 ← cstr s.mem (lit 0)
  let str2 := x7
  let x8 ← strview_find_last_strview s.mem str1 str2
  let search_result := x8
  let f := f ++ if (strview_is_valid search_result) then [] else [664]
  let f := f ++ if (decide (((search_result.data - str1.data) : Int) = 6)) then [] else [665]
  let x9 ← cstr s.mem (lit 2)
  let str1 := x9
  let x10 ← cstr s.mem (lit 0)
  let str2 := x10
  let x11 ← strview_find_last_strview s.mem str1 str2
  let search_result := x11
  let f := f ++ if (strview_is_valid search_result) then [] else [670]
  let f := f ++ if (decide (((search_result.data - str1.data) : Int) = 5)) then [] else [671]
  .ok f

theorem test_strview_find_last_passes : test_strview_find_last = .ok [] := by decide +kernel

/-- test/test.c line 677: `test_strview_find_last_nocase`. -/
def test_strview_find_last_nocase : Res (List Nat) := do
  let lits : List (List Byte) := [[110, 101, 101, 100, 108, 101],
    [110, 101, 101, 100, 108, 69],
    [110, 101, 101, 68, 108, 101],
    [110, 69, 101, 100, 108, 101],
    [110, 101, 101, 100, 108, 101, 78, 101, 101, 100, 108, 101],
    [110, 101, 101, 100, 108, 110, 101, 101, 100, 108, 101],
    [110, 101, 101, 100, 76, 101]]
  let lit := litAddr lits
  let s := start lits
  let f : List Nat := []
  let x1 ← cstr s.mem (lit 0)
  let str1 := x1
  let x2 ← cstr s.mem (lit 1)
  let str2 := x2
  let x3 ← strview_find_last_nocase_strview s.mem str1 str2
  let search_result := x3
  let f := f ++ if (strview_is_valid search_result) then [] else [683]
  let f := f ++ if (decide (((search_result.data - str1.data) : Int) = 0)) then [] else [684]
  let x4 ← cstr s.mem (lit 2)
  let str1 := x4
  let x5 ← strview_find_last_nocase_cstr s.mem str1 (lit 3)
  let search_result := x5
  let f := f ++ if (strview_is_valid search_result) then [] else [688]
  let f := f ++ if (decide (((search_result.data - str1.data) : Int) = 0)) then [] else [689]
  let x6 ← cstr s.mem (lit 4)
  let str1 := x6
  let x7 ← cstr s.mem (lit 0)
  let str2 := x7
  let x8 ← strview_find_last_nocase_strview s.mem str1 str2
  let search_result := x8
  let f := f ++ if (strview_is_valid search_result) then [] else [694]
  let f := f ++ if (decide (((search_result.data - str1.data) : Int) = 6)) then [] else [695]
  let x9 ← cstr s.mem (lit 5)
  let str1 := x9
  let x10 ← cstr s.mem (lit 6)
  let str2 := x10
  let x11 ← strview_find_last_nocase_strview s.mem str1 str2
  let search_result := x11
  let f := f ++ if (strview_is_valid search_result) then [] else [700]
  let f := f ++ if (decide (((search_result.data - str1.data) : Int) = 5)) then [] else [701]
  .ok f

theorem test_strview_find_last_nocase_passes : test_strview_find_last_nocase = .ok [] := by decide +kernel

/-- test/test.c line 707: `test_strview_find_last_edge_cases`. -/
def test_strview_find_last_edge_cases : Res (List Nat) := do
  let lits : List (List Byte) := [[104, 97, 121, 115, 116, 97, 99, 107],
    []]
  let lit := litAddr lits
  let s := start lits
  let f : List Nat := []
  let x1 ← cstr s.mem (lit 0)
  let str1 := x1
  let x2 ← cstr s.mem (lit 1)
  let str2 := x2
  let x3 ← strview_find_last_strview s.mem str1 str2
  let search_result := x3
  let f := f ++ if (strview_is_valid search_result) then [] else [713]
  let f := f ++ if (decide (((search_result.data - str1.data) : Int) = 8)) then [] else [714]
  let str2 := View.invalid
  let x4 ← strview_find_last_strview s.mem str1 str2
  let search_result := x4
  let f := f ++ if (!(strview_is_valid search_result)) then [] else [718]
  let str1 := View.invalid
  let x5 ← cstr s.mem (lit 1)
  let str2 := x5
  let x6 ← strview_find_first_strview s.mem str1 str2
  let search_result := x6
  let f := f ++ if (!(strview_is_valid search_result)) then [] else [723]
  let x7 ← cstr s.mem (lit 1)
  let str1 := x7
  let x8 ← cstr s.mem (lit 1)
  let str2 := x8
  let x9 ← strview_find_first_strview s.mem str1 str2
  let search_result := x9
  let f := f ++ if (strview_is_valid search_result) then [] else [728]
  let f := f ++ if (decide (((search_result.data - str1.data) : Int) = 0)) then [] else [729]
  .ok f

theorem test_strview_find_last_edge_cases_passes : test_strview_find_last_edge_cases = .ok [] := by decide +kernel

/-- test/test.c line 735: `test_strview_is_valid`. -/
def test_strview_is_valid : Res (List Nat) := do
  let lits : List (List Byte) := [[118, 97, 108, 105, 100]]
  let lit := litAddr lits
  let s := start lits
  let f : List Nat := []
  let str1 := View.invalid
  let f := f ++ if (!(strview_is_valid str1)) then [] else [737]
  let x1 ← cstr s.mem (lit 0)
  let str1 := x1
  let f := f ++ if (strview_is_valid str1) then [] else [739]
  .ok f

theorem test_strview_is_valid_passes : test_strview_is_valid = .ok [] := by decide +kernel

/-- test/test.c line 790: `test_strview_is_match`. -/
def test_strview_is_match : Res (List Nat) := do
  let lits : List (List Byte) := [[72, 101, 108, 108, 111],
    [72, 101, 108, 108, 79],
    [72, 101, 108, 108]]
  let lit := litAddr lits
  let s := start lits
  let f : List Nat := []
  let x1 ← cstr s.mem (lit 0)
  let x2 ← cstr s.mem (lit 0)
  let x3 ← strview_is_match_strview s.mem x1 x2
  let f := f ++ if x3 then [] else [791]
  let x4 ← strview_is_match_strview s.mem View.invalid View.invalid
  let f := f ++ if x4 then [] else [792]
  let x5 ← cstr s.mem (lit 0)
  let x6 ← strview_is_match_cstr s.mem x5 (lit 0)
  let f := f ++ if x6 then [] else [793]
  let x7 ← strview_is_match_cstr s.mem View.invalid 0
  let f := f ++ if x7 then [] else [794]
  let x8 ← cstr s.mem (lit 0)
  let x9 ← cstr s.mem (lit 1)
  let x10 ← strview_is_match_strview s.mem x8 x9
  let f := f ++ if (!x10) then [] else [796]
  let x11 ← cstr s.mem (lit 0)
  let x12 ← cstr s.mem (lit 2)
  let x13 ← strview_is_match_strview s.mem x11 x12
  let f := f ++ if (!x13) then [] else [797]
  let x14 ← cstr s.mem (lit 2)
  let x15 ← cstr s.mem (lit 0)
  let x16 ← strview_is_match_strview s.mem x14 x15
  let f := f ++ if (!x16) then [] else [798]
  let x17 ← cstr s.mem (lit 0)
  let x18 ← strview_is_match_strview s.mem x17 View.invalid
  let f := f ++ if (!x18) then [] else [799]
  let x19 ← cstr s.mem (lit 0)
  let x20 ← strview_is_match_strview s.mem View.invalid x19
  let f := f ++ if (!x20) then [] else [800]
  .ok f

theorem test_strview_is_match_passes : test_strview_is_match = .ok [] := by decide +kernel

/-- test/test.c line 805: `test_strview_is_match_nocase`. -/
def test_strview_is_match_nocase : Res (List Nat) := do
  let lits : List (List Byte) := [[72, 101, 108, 108, 111],
    [72, 101, 108, 108, 79],
    [104, 101, 108, 108, 111],
    [72, 101, 108, 108]]
  let lit := litAddr lits
  let s := start lits
  let f : List Nat := []
  let x1 ← cstr s.mem (lit 0)
  let x2 ← cstr s.mem (lit 0)
  let x3 ← strview_is_match_nocase_strview s.mem x1 x2
  let f := f ++ if x3 then [] else [806]
  let x4 ← strview_is_match_nocase_strview s.mem View.invalid View.invalid
  let f := f ++ if x4 then [] else [807]
  let x5 ← cstr s.mem (lit 0)
  let x6 ← cstr s.mem (lit 1)
  let x7 ← strview_is_match_nocase_strview s.mem x5 x6
  let f := f ++ if x7 then [] else [808]
  let x8 ← cstr s.mem (lit 0)
  let x9 ← cstr s.mem (lit 2)
  let x10 ← strview_is_match_nocase_strview s.mem x8 x9
  let f := f ++ if x10 then [] else [809]
  let x11 ← cstr s.mem (lit 0)
  let x12 ← strview_is_match_nocase_cstr s.mem x11 (lit 0)
  let f := f ++ if x12 then [] else [811]
  let x13 ← strview_is_match_nocase_cstr s.mem View.invalid 0
  let f := f ++ if x13 then [] else [812]
  let x14 ← cstr s.mem (lit 0)
  let x15 ← strview_is_match_nocase_cstr s.mem x14 (lit 1)
  let f := f ++ if x15 then [] else [813]
  let x16 ← cstr s.mem (lit 0)
  let x17 ← strview_is_match_nocase_cstr s.mem x16 (lit 2)
  let f := f ++ if x17 then [] else [814]
  let x18 ← cstr s.mem (lit 0)
  let x19 ← cstr s.mem (lit 3)
  let x20 ← strview_is_match_nocase_strview s.mem x18 x19
  let f := f ++ if (!x20) then [] else [816]
  let x21 ← cstr s.mem (lit 3)
  let x22 ← cstr s.mem (lit 0)
  let x23 ← strview_is_match_nocase_strview s.mem x21 x22
  let f := f ++ if (!x23) then [] else [817]
  let x24 ← cstr s.mem (lit 0)
  let x25 ← strview_is_match_nocase_strview s.mem x24 View.invalid
  let f := f ++ if (!x25) then [] else [818]
  let x26 ← cstr s.mem (lit 0)
  let x27 ← strview_is_match_nocase_strview s.mem View.invalid x26
  let f := f ++ if (!x27) then [] else [819]
  .ok f

theorem test_strview_is_match_nocase_passes : test_strview_is_match_nocase = .ok [] := by decide +kernel

/-- test/test.c line 824: `test_strview_starts_with`. -/
def test_strview_starts_with : Res (List Nat) := do
  let lits : List (List Byte) := [[72, 101, 108, 108, 111, 46, 46, 46],
    [72, 101, 108, 108, 111],
    [72, 101, 108, 108, 111, 46, 46]]
  let lit := litAddr lits
  let s := start lits
  let f : List Nat := []
  let x1 ← cstr s.mem (lit 0)
  let x2 ← cstr s.mem (lit 1)
  let x3 ← strview_starts_with_strview s.mem x1 x2
  let f := f ++ if x3 then [] else [825]
  let x4 ← strview_starts_with_strview s.mem View.invalid View.invalid
  let f := f ++ if x4 then [] else [826]
  let x5 ← cstr s.mem (lit 2)
  let x6 ← cstr s.mem (lit 0)
  let x7 ← strview_starts_with_strview s.mem x5 x6
  let f := f ++ if (!x7) then [] else [827]
  let x8 ← cstr s.mem (lit 1)
  let x9 ← strview_starts_with_strview s.mem x8 View.invalid
  let f := f ++ if (!x9) then [] else [828]
  let x10 ← cstr s.mem (lit 1)
  let x11 ← strview_starts_with_strview s.mem View.invalid x10
  let f := f ++ if (!x11) then [] else [829]
  let x12 ← cstr s.mem (lit 0)
  let x13 ← strview_starts_with_cstr s.mem x12 (lit 1)
  let f := f ++ if x13 then [] else [831]
  let x14 ← strview_starts_with_cstr s.mem View.invalid 0
  let f := f ++ if x14 then [] else [832]
  let x15 ← cstr s.mem (lit 2)
  let x16 ← strview_starts_with_cstr s.mem x15 (lit 0)
  let f := f ++ if (!x16) then [] else [833]
  let x17 ← cstr s.mem (lit 1)
  let x18 ← strview_starts_with_cstr s.mem x17 0
  let f := f ++ if (!x18) then [] else [834]
  let x19 ← strview_starts_with_cstr s.mem View.invalid (lit 1)
  let f := f ++ if (!x19) then [] else [835]
  .ok f

theorem test_strview_starts_with_passes : test_strview_starts_with = .ok [] := by decide +kernel

/-- test/test.c line 841: `test_strview_starts_with_nocase`. -/
def test_strview_starts_with_nocase : Res (List Nat) := do
  let lits : List (List Byte) := [[104, 69, 76, 108, 111, 46, 46, 46],
    [72, 101, 108, 108, 111],
    [72, 101, 108, 108, 111, 46, 46],
    [72, 101, 108, 108, 111, 46, 46, 46]]
  let lit := litAddr lits
  let s := start lits
  let f : List Nat := []
  let x1 ← cstr s.mem (lit 0)
  let x2 ← cstr s.mem (lit 1)
  let x3 ← strview_starts_with_nocase_strview s.mem x1 x2
  let f := f ++ if x3 then [] else [842]
  let x4 ← strview_starts_with_nocase_strview s.mem View.invalid View.invalid
  let f := f ++ if x4 then [] else [843]
  let x5 ← cstr s.mem (lit 2)
  let x6 ← cstr s.mem (lit 3)
  let x7 ← strview_starts_with_nocase_strview s.mem x5 x6
  let f := f ++ if (!x7) then [] else [844]
  let x8 ← cstr s.mem (lit 1)
  let x9 ← strview_starts_with_nocase_strview s.mem x8 View.invalid
  let f := f ++ if (!x9) then [] else [845]
  let x10 ← cstr s.mem (lit 1)
  let x11 ← strview_starts_with_nocase_strview s.mem View.invalid x10
  let f := f ++ if (!x11) then [] else [846]
  let x12 ← cstr s.mem (lit 0)
  let x13 ← strview_starts_with_nocase_cstr s.mem x12 (lit 1)
  let f := f ++ if x13 then [] else [848]
  let x14 ← strview_starts_with_nocase_cstr s.mem View.invalid 0
  let f := f ++ if x14 then [] else [849]
  let x15 ← cstr s.mem (lit 2)
  let x16 ← strview_starts_with_nocase_cstr s.mem x15 (lit 3)
  let f := f ++ if (!x16) then [] else [850]
  let x17 ← cstr s.mem (lit 1)
  let x18 ← strview_starts_with_nocase_cstr s.mem x17 0
  let f := f ++ if (!x18) then [] else [851]
  let x19 ← strview_starts_with_nocase_cstr s.mem View.invalid (lit 1)
  let f := f ++ if (!x19) then [] else [852]
  .ok f

theorem test_strview_starts_with_nocase_passes : test_strview_starts_with_nocase = .ok [] := by decide +kernel

/-- test/test.c line 858: `test_strview_trim_start`. -/
def test_strview_trim_start : Res (List Nat) := do
  let lits : List (List Byte) := [[47, 46, 59, 47, 104, 101, 108, 108, 111, 59, 46, 47, 59, 46],
    [59, 46, 47],
    [104, 101, 108, 108, 111, 59, 46, 47, 59, 46],
    [47, 59],
    [46, 59, 47, 104, 101, 108, 108, 111, 59, 46, 47, 59, 46],
    [47],
    []]
  let lit := litAddr lits
  let s := start lits
  let f : List Nat := []
  let x1 ← cstr s.mem (lit 0)
  let str1 := x1
  let x2 ← cstr s.mem (lit 1)
  let x3 ← strview_trim_start_strview s.mem str1 x2
  let str2 := x3
  let x4 ← memcmp s.mem (lit 2) str2.data (sizeT str2.size)
  let f := f ++ if (decide (x4 = 0)) then [] else [863]
  let x5 ← cstr s.mem (lit 3)
  let x6 ← strview_trim_start_strview s.mem str1 x5
  let str2 := x6
  let x7 ← memcmp s.mem (lit 4) str2.data (sizeT str2.size)
  let f := f ++ if (decide (x7 = 0)) then [] else [866]
  let x8 ← cstr s.mem (lit 5)
  let x9 ← strview_trim_start_strview s.mem str1 x8
  let str2 := x9
  let x10 ← memcmp s.mem (lit 4) str2.data (sizeT str2.size)
  let f := f ++ if (decide (x10 = 0)) then [] else [869]
  let x11 ← cstr s.mem (lit 6)
  let x12 ← strview_trim_start_strview s.mem str1 x11
  let str2 := x12
  let x13 ← memcmp s.mem (lit 0) str2.data (sizeT str2.size)
  let f := f ++ if (decide (x13 = 0)) then [] else [872]
  let x14 ← strview_trim_start_strview s.mem str1 View.invalid
  let str2 := x14
  let x15 ← memcmp s.mem (lit 0) str2.data (sizeT str2.size)
  let f := f ++ if (decide (x15 = 0)) then [] else [875]
  let x16 ← cstr s.mem (lit 0)
  let str1 := x16
  let x17 ← strview_trim_start_cstr s.mem str1 (lit 1)
  let str2 := x17
  let x18 ← memcmp s.mem (lit 2) str2.data (sizeT str2.size)
  let f := f ++ if (decide (x18 = 0)) then [] else [879]
  let x19 ← strview_trim_start_cstr s.mem str1 (lit 3)
  let str2 := x19
  let x20 ← memcmp s.mem (lit 4) str2.data (sizeT str2.size)
  let f := f ++ if (decide (x20 = 0)) then [] else [882]
  let x21 ← strview_trim_start_cstr s.mem str1 (lit 5)
  let str2 := x21
  let x22 ← memcmp s.mem (lit 4) str2.data (sizeT str2.size)
  let f := f ++ if (decide (x22 = 0)) then [] else [885]
  let x23 ← strview_trim_start_cstr s.mem str1 (lit 6)
  let str2 := x23
  let x24 ← memcmp s.mem (lit 0) str2.data (sizeT str2.size)
  let f := f ++ if (decide (x24 = 0)) then [] else [888]
  .ok f

theorem test_strview_trim_start_passes : test_strview_trim_start = .ok [] := by decide +kernel

/-- test/test.c line 894: `test_strview_trim_end`. -/
def test_strview_trim_end : Res (List Nat) := do
  let lits : List (List Byte) := [[47, 46, 59, 47, 104, 101, 108, 108, 111, 59, 46, 47, 59, 46],
    [59, 46, 47],
    [47, 46, 59, 47, 104, 101, 108, 108, 111],
    [59, 46],
    [47, 46, 59, 47, 104, 101, 108, 108, 111, 59, 46, 47],
    [59],
    []]
  let lit := litAddr lits
  let s := start lits
  let f : List Nat := []
  let x1 ← cstr s.mem (lit 0)
  let str1 := x1
  let x2 ← cstr s.mem (lit 1)
  let x3 ← strview_trim_end_strview s.mem str1 x2
  let str2 := x3
  let x4 ← memcmp s.mem (lit 2) str2.data (sizeT str2.size)
  let f := f ++ if (decide (x4 = 0)) then [] else [899]
  let x5 ← cstr s.mem (lit 3)
  let x6 ← strview_trim_end_strview s.mem str1 x5
  let str2 := x6
  let x7 ← memcmp s.mem (lit 4) str2.data (sizeT str2.size)
  let f := f ++ if (decide (x7 = 0)) then [] else [902]
  let x8 ← cstr s.mem (lit 5)
  let x9 ← strview_trim_end_strview s.mem str1 x8
  let str2 := x9
  let x10 ← memcmp s.mem (lit 0) str2.data (sizeT str2.size)
  let f := f ++ if (decide (x10 = 0)) then [] else [905]
  let x11 ← cstr s.mem (lit 6)
  let x12 ← strview_trim_end_strview s.mem str1 x11
  let str2 := x12
  let x13 ← memcmp s.mem (lit 0) str2.data (sizeT str2.size)
  let f := f ++ if (decide (x13 = 0)) then [] else [908]
  let x14 ← strview_trim_end_strview s.mem str1 View.invalid
  let str2 := x14
  let x15 ← memcmp s.mem (lit 0) str2.data (sizeT str2.size)
  let f := f ++ if (decide (x15 = 0)) then [] else [911]
  let x16 ← cstr s.mem (lit 0)
  let str1 := x16
  let x17 ← strview_trim_end_cstr s.mem str1 (lit 1)
  let str2 := x17
  let x18 ← memcmp s.mem (lit 2) str2.data (sizeT str2.size)
  let f := f ++ if (decide (x18 = 0)) then [] else [915]
  let x19 ← strview_trim_end_cstr s.mem str1 (lit 3)
  let str2 := x19
  let x20 ← memcmp s.mem (lit 4) str2.data (sizeT str2.size)
  let f := f ++ if (decide (x20 = 0)) then [] else [918]
  let x21 ← strview_trim_end_cstr s.mem str1 (lit 5)
  let str2 := x21
  let x22 ← memcmp s.mem (lit 0) str2.data (sizeT str2.size)
  let f := f ++ if (decide (x22 = 0)) then [] else [921]
  let x23 ← strview_trim_end_cstr s.mem str1 (lit 6)
  let str2 := x23
  let x24 ← memcmp s.mem (lit 0) str2.data (sizeT str2.size)
  let f := f ++ if (decide (x24 = 0)) then [] else [924]
  .ok f

theorem test_strview_trim_end_passes : test_strview_trim_end = .ok [] := by decide +kernel

/-- test/test.c line 930: `test_strview_trim`. -/
def test_strview_trim : Res (List Nat) := do
  let lits : List (List Byte) := [[49, 50, 51, 104, 101, 108, 108, 111, 51, 50, 49],
    [49, 51, 50],
    [104, 101, 108, 108, 111]]
  let lit := litAddr lits
  let s := start lits
  let f : List Nat := []
  let x1 ← cstr s.mem (lit 0)
  let str1 := x1
  let x2 ← cstr s.mem (lit 1)
  let x3 ← strview_trim_strview s.mem str1 x2
  let str2 := x3
  let x4 ← memcmp s.mem (lit 2) str2.data (sizeT str2.size)
  let f := f ++ if (decide (x4 = 0)) then [] else [935]
  let x5 ← cstr s.mem (lit 0)
  let str1 := x5
  let x6 ← strview_trim_cstr s.mem str1 (lit 1)
  let str2 := x6
  let x7 ← memcmp s.mem (lit 2) str2.data (sizeT str2.size)
  let f := f ++ if (decide (x7 = 0)) then [] else [939]
  .ok f

theorem test_strview_trim_passes : test_strview_trim = .ok [] := by decide +kernel

/-- test/test.c line 944: `test_strview_to_cstr`. -/
def test_strview_to_cstr : Res (List Nat) := do
  let lits : List (List Byte) := [[115, 116, 114, 105, 110, 103],
    [115, 116, 114]]
  let lit := litAddr lits
  let s := start lits
  let f : List Nat := []
  let m ← store s.mem (staticBuf + 0) 127
  let s := { s with mem := m }
  let x1 ← cstr s.mem (lit 0)
  let m ← strview_to_cstr s.mem staticBuf 0 x1
  let s := { s with mem := m }
  let x2 ← load s.mem (staticBuf + 0)
  let f := f ++ if (decide (((x2.toNat : Int) : Int) = 127)) then [] else [949]
  let x3 ← cstr s.mem (lit 0)
  let m ← strview_to_cstr s.mem staticBuf 1 x3
  let s := { s with mem := m }
  let x4 ← load s.mem (staticBuf + 0)
  let f := f ++ if (decide (((x4.toNat : Int) : Int) = 0)) then [] else [952]
  let x5 ← cstr s.mem (lit 0)
  let m ← strview_to_cstr s.mem staticBuf 4 x5
  let s := { s with mem := m }
  let x6 ← memcmp s.mem staticBuf (lit 1) (sizeT 4)
  let f := f ++ if (decide (x6 = 0)) then [] else [955]
  let x7 ← cstr s.mem (lit 1)
  let m ← strview_to_cstr s.mem staticBuf 4 x7
  let s := { s with mem := m }
  let x8 ← memcmp s.mem staticBuf (lit 1) (sizeT 4)
  let f := f ++ if (decide (x8 = 0)) then [] else [958]
  let x9 ← cstr s.mem (lit 0)
  let m ← strview_to_cstr s.mem staticBuf 200 x9
  let s := { s with mem := m }
  let x10 ← memcmp s.mem staticBuf (lit 0) (sizeT 7)
  let f := f ++ if (decide (x10 = 0)) then [] else [961]
  .ok f

theorem test_strview_to_cstr_passes : test_strview_to_cstr = .ok [] := by decide +kernel

/-- test/test.c line 966: `test_strview_compare`. -/
def test_strview_compare : Res (List Nat) := do
  let lits : List (List Byte) := [[97, 98, 100],
    [97, 98, 99],
    [97, 98, 97],
    [97, 98, 99, 97],
    []]
  let lit := litAddr lits
  let s := start lits
  let f : List Nat := []
  let str1 := View.invalid
  let x1 ← cstr s.mem (lit 0)
  let x2 ← cstr s.mem (lit 1)
  let x3 ← strview_compare s.mem x1 x2
  let f := f ++ if (decide ((x3 : Int) > 0)) then [] else [969]
  let x4 ← cstr s.mem (lit 2)
  let x5 ← cstr s.mem (lit 0)
  let x6 ← strview_compare s.mem x4 x5
  let f := f ++ if (decide ((x6 : Int) < 0)) then [] else [970]
  let x7 ← cstr s.mem (lit 1)
  let x8 ← cstr s.mem (lit 1)
  let x9 ← strview_compare s.mem x7 x8
  let f := f ++ if (decide ((x9 : Int) = 0)) then [] else [971]
  let x10 ← cstr s.mem (lit 3)
  let x11 ← cstr s.mem (lit 1)
  let x12 ← strview_compare s.mem x10 x11
  let f := f ++ if (decide ((x12 : Int) > 0)) then [] else [972]
  let x13 ← cstr s.mem (lit 1)
  let x14 ← cstr s.mem (lit 3)
  let x15 ← strview_compare s.mem x13 x14
  let f := f ++ if (decide ((x15 : Int) < 0)) then [] else [973]
  let x16 ← cstr s.mem (lit 4)
  let x17 ← strview_compare s.mem x16 str1
  let f := f ++ if (decide (x17 = 0)) then [] else [974]
  .ok f

theorem test_strview_compare_passes : test_strview_compare = .ok [] := by decide +kernel

/-- test/test.c line 980: `test_strview_split_index`. -/
def test_strview_split_index : Res (List Nat) := do
  let lits : List (List Byte) := [[49, 50, 51],
    [50, 51],
    [49],
    [49, 50],
    [51],
    []]
  let lit := litAddr lits
  let s := start lits
  let f : List Nat := []
  let x1 ← cstr s.mem (lit 0)
  let str1 := x1
  let (x2, str1) ← sp <| strview_split_index (some str1) 1
  let str2 := x2
  let f := f ++ if (decide ((str1.size : Int) = 2)) then [] else [985]
  let f := f ++ if (decide ((str2.size : Int) = 1)) then [] else [986]
  let f := f ++ if (strview_is_valid str1) then [] else [987]
  let f := f ++ if (strview_is_valid str2) then [] else [988]
  let x3 ← memcmp s.mem str1.data (lit 1) (sizeT str1.size)
  let f := f ++ if (decide (x3 = 0)) then [] else [989]
  let x4 ← memcmp s.mem str2.data (lit 2) (sizeT str2.size)
  let f := f ++ if (decide (x4 = 0)) then [] else [990]
  let x5 ← cstr s.mem (lit 0)
  let str1 := x5
  let (x6, str1) ← sp <| strview_split_index (some str1) (-1)
  let str2 := x6
  let f := f ++ if (decide ((str1.size : Int) = 2)) then [] else [994]
  let f := f ++ if (decide ((str2.size : Int) = 1)) then [] else [995]
  let f := f ++ if (strview_is_valid str1) then [] else [996]
  let f := f ++ if (strview_is_valid str2) then [] else [997]
  let x7 ← memcmp s.mem str1.data (lit 3) (sizeT str1.size)
  let f := f ++ if (decide (x7 = 0)) then [] else [998]
  let x8 ← memcmp s.mem str2.data (lit 4) (sizeT str2.size)
  let f := f ++ if (decide (x8 = 0)) then [] else [999]
  let x9 ← cstr s.mem (lit 0)
  let str1 := x9
  let (x10, str1) ← sp <| strview_split_index (some str1) 0
  let str2 := x10
  let f := f ++ if (decide ((str1.size : Int) = 3)) then [] else [1003]
  let f := f ++ if (decide ((str2.size : Int) = 0)) then [] else [1004]
  let f := f ++ if (strview_is_valid str1) then [] else [1005]
  let f := f ++ if (strview_is_valid str2) then [] else [1006]
  let x11 ← memcmp s.mem str1.data (lit 0) (sizeT str1.size)
  let f := f ++ if (decide (x11 = 0)) then [] else [1007]
  let x12 ← memcmp s.mem str2.data (lit 5) (sizeT str2.size)
  let f := f ++ if (decide (x12 = 0)) then [] else [1008]
  let x13 ← cstr s.mem (lit 0)
  let str1 := x13
  let (x14, str1) ← sp <| strview_split_index (some str1) (-3)
  let str2 := x14
  let f := f ++ if (decide ((str1.size : Int) = 0)) then [] else [1012]
  let f := f ++ if (decide ((str2.size : Int) = 3)) then [] else [1013]
  let f := f ++ if (strview_is_valid str1) then [] else [1014]
  let f := f ++ if (strview_is_valid str2) then [] else [1015]
  let x15 ← memcmp s.mem str1.data (lit 5) (sizeT str1.size)
  let f := f ++ if (decide (x15 = 0)) then [] else [1016]
  let x16 ← memcmp s.mem str2.data (lit 0) (sizeT str2.size)
  let f := f ++ if (decide (x16 = 0)) then [] else [1017]
  let x17 ← cstr s.mem (lit 0)
  let str1 := x17
  let (x18, str1) ← sp <| strview_split_index (some str1) 3
  let str2 := x18
  let f := f ++ if (decide ((str1.size : Int) = 0)) then [] else [1021]
  let f := f ++ if (decide ((str2.size : Int) = 3)) then [] else [1022]
  let f := f ++ if (strview_is_valid str1) then [] else [1023]
  let f := f ++ if (strview_is_valid str2) then [] else [1024]
  let x19 ← memcmp s.mem str1.data (lit 5) (sizeT str1.size)
  let f := f ++ if (decide (x19 = 0)) then [] else [1025]
  let x20 ← memcmp s.mem str2.data (lit 0) (sizeT str2.size)
  let f := f ++ if (decide (x20 = 0)) then [] else [1026]
  let x21 ← cstr s.mem (lit 0)
  let str1 := x21
  let (x22, str1) ← sp <| strview_split_index (some str1) 4
  let str2 := x22
  let f := f ++ if (decide ((str1.size : Int) = 0)) then [] else [1030]
  let f := f ++ if (decide ((str2.size : Int) = 3)) then [] else [1031]
  let f := f ++ if (strview_is_valid str1) then [] else [1032]
  let f := f ++ if (strview_is_valid str2) then [] else [1033]
  let x23 ← memcmp s.mem str2.data (lit 0) (sizeT str2.size)
  let f := f ++ if (decide (x23 = 0)) then [] else [1034]
  let x24 ← cstr s.mem (lit 0)
  let str1 := x24
  let (x25, str1) ← sp <| strview_split_index (some str1) (-4)
  let str2 := x25
  let f := f ++ if (decide ((str1.size : Int) = 0)) then [] else [1038]
  let f := f ++ if (decide ((str2.size : Int) = 3)) then [] else [1039]
  let f := f ++ if (strview_is_valid str1) then [] else [1040]
  let f := f ++ if (strview_is_valid str2) then [] else [1041]
  let x26 ← memcmp s.mem str2.data (lit 0) (sizeT str2.size)
  let f := f ++ if (decide (x26 = 0)) then [] else [1042]
  .ok f

theorem test_strview_split_index_passes : test_strview_split_index = .ok [] := by decide +kernel

/-- test/test.c line 1450: `test_strview_split_left`. -/
def test_strview_split_left : Res (List Nat) := do
  let lits : List (List Byte) := [[72, 101, 108, 108, 111, 45, 116, 101, 115, 116, 105, 110, 103, 45, 49, 50, 51],
    [116, 101, 115, 116, 105, 110, 103],
    [72, 101, 108, 108, 111, 45],
    [116, 101, 115, 116, 105, 110, 103, 45, 49, 50, 51],
    []]
  let lit := litAddr lits
  let s := start lits
  let f : List Nat := []
  let x1 ← cstr s.mem (lit 0)
  let str1 := x1
  let x2 ← cstr s.mem (lit 1)
  let x3 ← strview_find_first_strview s.mem str1 x2
  let str2 := x3
  let (x4, str1) ← sp <| strview_split_left (some str1) str2
  let str3 := x4
  let x5 ← cstr s.mem (lit 2)
  let x6 ← strview_is_match_strview s.mem str3 x5
  let f := f ++ if x6 then [] else [1456]
  let x7 ← cstr s.mem (lit 3)
  let x8 ← strview_is_match_strview s.mem str1 x7
  let f := f ++ if x8 then [] else [1457]
  let x9 ← cstr s.mem (lit 0)
  let str1 := x9
  let x10 ← cstr s.mem (lit 4)
  let x11 ← strview_find_first_strview s.mem str1 x10
  let str2 := x11
  let (x12, str1) ← sp <| strview_split_left (some str1) str2
  let str3 := x12
  let f := f ++ if (strview_is_valid str3) then [] else [1462]
  let f := f ++ if (decide ((str3.size : Int) = 0)) then [] else [1462]
  let x13 ← cstr s.mem (lit 0)
  let x14 ← strview_is_match_strview s.mem str1 x13
  let f := f ++ if x14 then [] else [1463]
  let x15 ← cstr s.mem (lit 0)
  let str1 := x15
  let x16 ← cstr s.mem (lit 4)
  let x17 ← strview_find_last_strview s.mem str1 x16
  let str2 := x17
  let (x18, str1) ← sp <| strview_split_left (some str1) str2
  let str3 := x18
  let f := f ++ if (strview_is_valid str1) then [] else [1468]
  let f := f ++ if (decide ((str1.size : Int) = 0)) then [] else [1468]
  let x19 ← cstr s.mem (lit 0)
  let x20 ← strview_is_match_strview s.mem str3 x19
  let f := f ++ if x20 then [] else [1469]
  let x21 ← cstr s.mem (lit 0)
  let str1 := x21
  let x22 ← cstr s.mem (lit 4)
  let x23 ← strview_find_first_strview s.mem str1 x22
  let str2 := x23
  let str2 := { str2 with data := str2.data - 1 }
  let (x24, str1) ← sp <| strview_split_left (some str1) str2
  let str3 := x24
  let f := f ++ if (!(strview_is_valid str3)) then [] else [1475]
  let x25 ← cstr s.mem (lit 0)
  let x26 ← strview_is_match_strview s.mem str1 x25
  let f := f ++ if x26 then [] else [1476]
  let x27 ← cstr s.mem (lit 0)
  let str1 := x27
  let x28 ← cstr s.mem (lit 4)
  let x29 ← strview_find_last_strview s.mem str1 x28
  let str2 := x29
  let str2 := { str2 with data := str2.data + 1 }
  let (x30, str1) ← sp <| strview_split_left (some str1) str2
  let str3 := x30
  let f := f ++ if (!(strview_is_valid str3)) then [] else [1482]
  let x31 ← cstr s.mem (lit 0)
  let x32 ← strview_is_match_strview s.mem str1 x31
  let f := f ++ if x32 then [] else [1483]
  .ok f

theorem test_strview_split_left_passes : test_strview_split_left = .ok [] := by decide +kernel

/-- test/test.c line 1489: `test_strview_split_right`. -/
def test_strview_split_right : Res (List Nat) := do
  let lits : List (List Byte) := [[72, 101, 108, 108, 111, 45, 116, 101, 115, 116, 105, 110, 103, 45, 49, 50, 51],
    [116, 101, 115, 116, 105, 110, 103],
    [45, 49, 50, 51],
    [72, 101, 108, 108, 111, 45, 116, 101, 115, 116, 105, 110, 103],
    []]
  let lit := litAddr lits
  let s := start lits
  let f : List Nat := []
  let x1 ← cstr s.mem (lit 0)
  let str1 := x1
  let x2 ← cstr s.mem (lit 1)
  let x3 ← strview_find_first_strview s.mem str1 x2
  let str2 := x3
  let (x4, str1) ← sp <| strview_split_right (some str1) str2
  let str3 := x4
  let x5 ← cstr s.mem (lit 2)
  let x6 ← strview_is_match_strview s.mem str3 x5
  let f := f ++ if x6 then [] else [1495]
  let x7 ← cstr s.mem (lit 3)
  let x8 ← strview_is_match_strview s.mem str1 x7
  let f := f ++ if x8 then [] else [1496]
  let x9 ← cstr s.mem (lit 0)
  let str1 := x9
  let x10 ← cstr s.mem (lit 4)
  let x11 ← strview_find_first_strview s.mem str1 x10
  let str2 := x11
  let (x12, str1) ← sp <| strview_split_right (some str1) str2
  let str3 := x12
  let f := f ++ if (strview_is_valid str1) then [] else [1501]
  let f := f ++ if (decide ((str1.size : Int) = 0)) then [] else [1501]
  let x13 ← cstr s.mem (lit 0)
  let x14 ← strview_is_match_strview s.mem str3 x13
  let f := f ++ if x14 then [] else [1502]
  let x15 ← cstr s.mem (lit 0)
  let str1 := x15
  let x16 ← cstr s.mem (lit 4)
  let x17 ← strview_find_last_strview s.mem str1 x16
  let str2 := x17
  let (x18, str1) ← sp <| strview_split_right (some str1) str2
  let str3 := x18
  let f := f ++ if (strview_is_valid str3) then [] else [1507]
  let f := f ++ if (decide ((str3.size : Int) = 0)) then [] else [1507]
  let x19 ← cstr s.mem (lit 0)
  let x20 ← strview_is_match_strview s.mem str1 x19
  let f := f ++ if x20 then [] else [1508]
  let x21 ← cstr s.mem (lit 0)
  let str1 := x21
  let x22 ← cstr s.mem (lit 4)
  let x23 ← strview_find_first_strview s.mem str1 x22
  let str2 := x23
  let str2 := { str2 with data := str2.data - 1 }
  let (x24, str1) ← sp <| strview_split_right (some str1) str2
  let str3 := x24
  let f := f ++ if (!(strview_is_valid str3)) then [] else [1514]
  let x25 ← cstr s.mem (lit 0)
  let x26 ← strview_is_match_strview s.mem str1 x25
  let f := f ++ if x26 then [] else [1515]
  let x27 ← cstr s.mem (lit 0)
  let str1 := x27
  let x28 ← cstr s.mem (lit 4)
  let x29 ← strview_find_last_strview s.mem str1 x28
  let str2 := x29
  let str2 := { str2 with data := str2.data + 1 }
  let (x30, str1) ← sp <| strview_split_right (some str1) str2
  let str3 := x30
  let f := f ++ if (!(strview_is_valid str3)) then [] else [1521]
  let x31 ← cstr s.mem (lit 0)
  let x32 ← strview_is_match_strview s.mem str1 x31
  let f := f ++ if x32 then [] else [1522]
  .ok f

theorem test_strview_split_right_passes : test_strview_split_right = .ok [] := by decide +kernel

/-- test/test.c line 1528: `test_strview_dequote`. -/
def test_strview_dequote : Res (List Nat) := do
  let lits : List (List Byte) := [[34, 70, 114, 101, 100, 34],
    [70, 114, 101, 100],
    [39, 70, 114, 101, 100, 39],
    [34, 39, 70, 114, 101, 100, 39, 34],
    [39, 34, 70, 114, 101, 100, 34, 39],
    [39, 39, 34, 70, 114, 101, 100, 34, 39, 39],
    [34, 34, 39, 70, 114, 101, 100, 39, 34, 34],
    [34, 39, 70, 114, 101, 100, 34, 39],
    [32, 34, 70, 114, 101, 100, 34]]
  let lit := litAddr lits
  let s := start lits
  let f : List Nat := []
  let x1 ← cstr s.mem (lit 0)
  let x2 ← strview_dequote s.mem x1
  let str1 := x2
  let x3 ← cstr s.mem (lit 1)
  let x4 ← strview_is_match_strview s.mem str1 x3
  let f := f ++ if x4 then [] else [1532]
  let x5 ← cstr s.mem (lit 2)
  let x6 ← strview_dequote s.mem x5
  let str1 := x6
  let x7 ← cstr s.mem (lit 1)
  let x8 ← strview_is_match_strview s.mem str1 x7
  let f := f ++ if x8 then [] else [1535]
  let x9 ← cstr s.mem (lit 3)
  let x10 ← strview_dequote s.mem x9
  let str1 := x10
  let x11 ← cstr s.mem (lit 2)
  let x12 ← strview_is_match_strview s.mem str1 x11
  let f := f ++ if x12 then [] else [1538]
  let x13 ← cstr s.mem (lit 4)
  let x14 ← strview_dequote s.mem x13
  let str1 := x14
  let x15 ← cstr s.mem (lit 0)
  let x16 ← strview_is_match_strview s.mem str1 x15
  let f := f ++ if x16 then [] else [1541]
  let x17 ← cstr s.mem (lit 5)
  let x18 ← strview_dequote s.mem x17
  let str1 := x18
  let x19 ← cstr s.mem (lit 0)
  let x20 ← strview_is_match_strview s.mem str1 x19
  let f := f ++ if x20 then [] else [1544]
  let x21 ← cstr s.mem (lit 6)
  let x22 ← strview_dequote s.mem x21
  let str1 := x22
  let x23 ← cstr s.mem (lit 2)
  let x24 ← strview_is_match_strview s.mem str1 x23
  let f := f ++ if x24 then [] else [1547]
  let x25 ← cstr s.mem (lit 7)
  let x26 ← strview_dequote s.mem x25
  let str1 := x26
  let x27 ← cstr s.mem (lit 7)
  let x28 ← strview_is_match_strview s.mem str1 x27
  let f := f ++ if x28 then [] else [1550]
  let x29 ← cstr s.mem (lit 8)
  let x30 ← strview_dequote s.mem x29
  let str1 := x30
  let x31 ← cstr s.mem (lit 8)
  let x32 ← strview_is_match_strview s.mem str1 x31
  let f := f ++ if x32 then [] else [1553]
  .ok f

theorem test_strview_dequote_passes : test_strview_dequote = .ok [] := by decide +kernel

/-- test/test.c line 1559: `test_strview_contains`. -/
def test_strview_contains : Res (List Nat) := do
  let lits : List (List Byte) := [[98, 99, 46, 46, 46],
    [97, 98, 99],
    [97, 98, 99, 46, 46],
    [46, 97, 98, 99, 46],
    [97, 66, 99],
    [46, 46, 97, 98, 99],
    [46, 46, 46, 97, 98]]
  let lit := litAddr lits
  let s := start lits
  let f : List Nat := []
  let x1 ← cstr s.mem (lit 0)
  let x2 ← cstr s.mem (lit 1)
  let x3 ← strview_contains s.mem x1 x2
  let f := f ++ if (!x3) then [] else [1560]
  let x4 ← cstr s.mem (lit 2)
  let x5 ← cstr s.mem (lit 1)
  let x6 ← strview_contains s.mem x4 x5
  let f := f ++ if x6 then [] else [1561]
  let x7 ← cstr s.mem (lit 3)
  let x8 ← cstr s.mem (lit 1)
  let x9 ← strview_contains s.mem x7 x8
  let f := f ++ if x9 then [] else [1562]
  let x10 ← cstr s.mem (lit 3)
  let x11 ← cstr s.mem (lit 4)
  let x12 ← strview_contains s.mem x10 x11
  let f := f ++ if (!x12) then [] else [1563]
  let x13 ← cstr s.mem (lit 5)
  let x14 ← cstr s.mem (lit 1)
  let x15 ← strview_contains s.mem x13 x14
  let f := f ++ if x15 then [] else [1564]
  let x16 ← cstr s.mem (lit 6)
  let x17 ← cstr s.mem (lit 1)
  let x18 ← strview_contains s.mem x16 x17
  let f := f ++ if (!x18) then [] else [1565]
  .ok f

theorem test_strview_contains_passes : test_strview_contains = .ok [] := by decide +kernel

/-- test/test.c line 1570: `test_strview_contains_nocase`. -/
def test_strview_contains_nocase : Res (List Nat) := do
  let lits : List (List Byte) := [[98, 99, 46, 46, 46],
    [65, 98, 99],
    [97, 98, 99, 46, 46],
    [97, 66, 99],
    [46, 97, 98, 99, 46],
    [65, 66, 99],
    [46, 46, 97, 98, 99],
    [97, 98, 67],
    [46, 46, 46, 97, 98],
    [65, 98, 67]]
  let lit := litAddr lits
  let s := start lits
  let f : List Nat := []
  let x1 ← cstr s.mem (lit 0)
  let x2 ← cstr s.mem (lit 1)
  let x3 ← strview_contains_nocase s.mem x1 x2
  let f := f ++ if (!x3) then [] else [1571]
  let x4 ← cstr s.mem (lit 2)
  let x5 ← cstr s.mem (lit 3)
  let x6 ← strview_contains_nocase s.mem x4 x5
  let f := f ++ if x6 then [] else [1572]
  let x7 ← cstr s.mem (lit 4)
  let x8 ← cstr s.mem (lit 5)
  let x9 ← strview_contains_nocase s.mem x7 x8
  let f := f ++ if x9 then [] else [1573]
  let x10 ← cstr s.mem (lit 6)
  let x11 ← cstr s.mem (lit 7)
  let x12 ← strview_contains_nocase s.mem x10 x11
  let f := f ++ if x12 then [] else [1574]
  let x13 ← cstr s.mem (lit 8)
  let x14 ← cstr s.mem (lit 9)
  let x15 ← strview_contains_nocase s.mem x13 x14
  let f := f ++ if (!x15) then [] else [1575]
  .ok f

theorem test_strview_contains_nocase_passes : test_strview_contains_nocase = .ok [] := by decide +kernel

end CStr.Conform
