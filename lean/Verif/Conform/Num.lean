import Verif.Conform.Base
import Verif.Spec.FloatIeee
/-! Unit tests of the project in the model: see `Conform/Base.lean`. Generated from test/test.c. The test is cut into parts, each with a new buffer. -/
set_option linter.unusedVariables false
namespace CStr.Conform
open CStr

/-- test/test.c `test_strnum_value`, lines 1610 to 1615. -/
def test_strnum_value_1 : Res (List Nat) := do
  let lits : List (List Byte) := []
  let lit := litAddr lits
  let s := start lits
  let f : List Nat := []
  let (x1, s) ← strbuf_create_empty dflt s 0 none
  let buf := x1
  let iuchar := (0 : Nat)
  let iushort := (0 : Nat)
  let iuint := (0 : Nat)
  let iulong := (0 : Nat)
  let iullong := (0 : Nat)
  let ichar := (0 : Int)
  let f := f ++ if (decide (buf ≠ 0)) then [] else [1598]
  let (v, buf, s) ← bo <| strbuf_printf cfg s (some buf) (fun _ => .text [50, 53, 53])
  let (x2, iuchar, v) ← nv <| strnum_value_u .uchar s.mem (some iuchar) (some v) 0
  let f := f ++ if decide (x2 = 0) then [] else [1610]
  let f := f ++ if decide (iuchar = 255) then [] else [1610]
  let (v, buf, s) ← bo <| strbuf_printf cfg s (some buf) (fun _ => .text [54, 53, 53, 51, 53])
  let (x3, iushort, v) ← nv <| strnum_value_u .ushort s.mem (some iushort) (some v) 0
  let f := f ++ if decide (x3 = 0) then [] else [1611]
  let f := f ++ if decide (iushort = 65535) then [] else [1611]
  let (v, buf, s) ← bo <| strbuf_printf cfg s (some buf) (fun _ => .text [52, 50, 57, 52, 57, 54, 55, 50, 57, 53])
  let (x4, iuint, v) ← nv <| strnum_value_u .uint s.mem (some iuint) (some v) 0
  let f := f ++ if decide (x4 = 0) then [] else [1612]
  let f := f ++ if decide (iuint = 4294967295) then [] else [1612]
  let (v, buf, s) ← bo <| strbuf_printf cfg s (some buf) (fun _ => .text [49, 56, 52, 52, 54, 55, 52, 52, 48, 55, 51, 55, 48, 57, 53, 53, 49, 54, 49, 53])
  let (x5, iulong, v) ← nv <| strnum_value_u .ulong s.mem (some iulong) (some v) 0
  let f := f ++ if decide (x5 = 0) then [] else [1613]
  let f := f ++ if decide (iulong = 18446744073709551615) then [] else [1613]
  let (v, buf, s) ← bo <| strbuf_printf cfg s (some buf) (fun _ => .text [49, 56, 52, 52, 54, 55, 52, 52, 48, 55, 51, 55, 48, 57, 53, 53, 49, 54, 49, 53])
  let (x6, iullong, v) ← nv <| strnum_value_u .ullong s.mem (some iullong) (some v) 0
  let f := f ++ if decide (x6 = 0) then [] else [1614]
  let f := f ++ if decide (iullong = 18446744073709551615) then [] else [1614]
  let (v, buf, s) ← bo <| strbuf_printf cfg s (some buf) (fun _ => .text [45, 49, 50, 56])
  let (x7, ichar, v) ← nv <| strnum_value_s .char s.mem (some ichar) (some v) 0
  let f := f ++ if decide (x7 = 0) then [] else [1615]
  let f := f ++ if decide (ichar = -128) then [] else [1615]
  let (buf, s) ← ds <| strbuf_destroy s (some buf)
  let f := f ++ if (decide (buf = 0)) then [] else [1795]
  .ok f

theorem test_strnum_value_1_passes : test_strnum_value_1 = .ok [] := by decide +kernel

/-- test/test.c `test_strnum_value`, lines 1616 to 1621. -/
def test_strnum_value_2 : Res (List Nat) := do
  let lits : List (List Byte) := []
  let lit := litAddr lits
  let s := start lits
  let f : List Nat := []
  let (x1, s) ← strbuf_create_empty dflt s 0 none
  let buf := x1
  let ichar := (0 : Int)
  let ishort := (0 : Int)
  let iint := (0 : Int)
  let ilong := (0 : Int)
  let f := f ++ if (decide (buf ≠ 0)) then [] else [1598]
  let (v, buf, s) ← bo <| strbuf_printf cfg s (some buf) (fun _ => .text [49, 50, 55])
  let (x8, ichar, v) ← nv <| strnum_value_s .char s.mem (some ichar) (some v) 0
  let f := f ++ if decide (x8 = 0) then [] else [1616]
  let f := f ++ if decide (ichar = 127) then [] else [1616]
  let (v, buf, s) ← bo <| strbuf_printf cfg s (some buf) (fun _ => .text [45, 51, 50, 55, 54, 56])
  let (x9, ishort, v) ← nv <| strnum_value_s .short s.mem (some ishort) (some v) 0
  let f := f ++ if decide (x9 = 0) then [] else [1617]
  let f := f ++ if decide (ishort = -32768) then [] else [1617]
  let (v, buf, s) ← bo <| strbuf_printf cfg s (some buf) (fun _ => .text [51, 50, 55, 54, 55])
  let (x10, ishort, v) ← nv <| strnum_value_s .short s.mem (some ishort) (some v) 0
  let f := f ++ if decide (x10 = 0) then [] else [1618]
  let f := f ++ if decide (ishort = 32767) then [] else [1618]
  let (v, buf, s) ← bo <| strbuf_printf cfg s (some buf) (fun _ => .text [45, 50, 49, 52, 55, 52, 56, 51, 54, 52, 56])
  let (x11, iint, v) ← nv <| strnum_value_s .int s.mem (some iint) (some v) 0
  let f := f ++ if decide (x11 = 0) then [] else [1619]
  let f := f ++ if decide (iint = -2147483648) then [] else [1619]
  let (v, buf, s) ← bo <| strbuf_printf cfg s (some buf) (fun _ => .text [50, 49, 52, 55, 52, 56, 51, 54, 52, 55])
  let (x12, iint, v) ← nv <| strnum_value_s .int s.mem (some iint) (some v) 0
  let f := f ++ if decide (x12 = 0) then [] else [1620]
  let f := f ++ if decide (iint = 2147483647) then [] else [1620]
  let (v, buf, s) ← bo <| strbuf_printf cfg s (some buf) (fun _ => .text [45, 57, 50, 50, 51, 51, 55, 50, 48, 51, 54, 56, 53, 52, 55, 55, 53, 56, 48, 56])
  let (x13, ilong, v) ← nv <| strnum_value_s .long s.mem (some ilong) (some v) 0
  let f := f ++ if decide (x13 = 0) then [] else [1621]
  let f := f ++ if decide (ilong = -9223372036854775808) then [] else [1621]
  let (buf, s) ← ds <| strbuf_destroy s (some buf)
  let f := f ++ if (decide (buf = 0)) then [] else [1795]
  .ok f

theorem test_strnum_value_2_passes : test_strnum_value_2 = .ok [] := by decide +kernel

/-- test/test.c `test_strnum_value`, lines 1622 to 1639. -/
def test_strnum_value_3 : Res (List Nat) := do
  let lits : List (List Byte) := []
  let lit := litAddr lits
  let s := start lits
  let f : List Nat := []
  let (x1, s) ← strbuf_create_empty dflt s 0 none
  let buf := x1
  let iuchar := (0 : Nat)
  let iushort := (0 : Nat)
  let iuint := (0 : Nat)
  let ilong := (0 : Int)
  let illong := (0 : Int)
  let f := f ++ if (decide (buf ≠ 0)) then [] else [1598]
  let (v, buf, s) ← bo <| strbuf_printf cfg s (some buf) (fun _ => .text [57, 50, 50, 51, 51, 55, 50, 48, 51, 54, 56, 53, 52, 55, 55, 53, 56, 48, 55])
  let (x14, ilong, v) ← nv <| strnum_value_s .long s.mem (some ilong) (some v) 0
  let f := f ++ if decide (x14 = 0) then [] else [1622]
  let f := f ++ if decide (ilong = 9223372036854775807) then [] else [1622]
  let (v, buf, s) ← bo <| strbuf_printf cfg s (some buf) (fun _ => .text [45, 57, 50, 50, 51, 51, 55, 50, 48, 51, 54, 56, 53, 52, 55, 55, 53, 56, 48, 56])
  let (x15, illong, v) ← nv <| strnum_value_s .llong s.mem (some illong) (some v) 0
  let f := f ++ if decide (x15 = 0) then [] else [1623]
  let f := f ++ if decide (illong = -9223372036854775808) then [] else [1623]
  let (v, buf, s) ← bo <| strbuf_printf cfg s (some buf) (fun _ => .text [57, 50, 50, 51, 51, 55, 50, 48, 51, 54, 56, 53, 52, 55, 55, 53, 56, 48, 55])
  let (x16, illong, v) ← nv <| strnum_value_s .llong s.mem (some illong) (some v) 0
  let f := f ++ if decide (x16 = 0) then [] else [1624]
  let f := f ++ if decide (illong = 9223372036854775807) then [] else [1624]
  let (v, buf, s) ← bo <| strbuf_printf cfg s (some buf) (fun _ => .text [50, 53, 53])
  let n ← getSize s.mem buf
  let c ← load s.mem (cstrOf buf + n - 1)
  let m ← store s.mem (cstrOf buf + n - 1) (c + 1)
  let s := { s with mem := m }
  let (x17, iuchar, v) ← nv <| strnum_value_u .uchar s.mem (some iuchar) (some v) 0
  let f := f ++ if decide (x17 = ERANGE) then [] else [1637]
  let (v, buf, s) ← bo <| strbuf_printf cfg s (some buf) (fun _ => .text [54, 53, 53, 51, 53])
  let n ← getSize s.mem buf
  let c ← load s.mem (cstrOf buf + n - 1)
  let m ← store s.mem (cstrOf buf + n - 1) (c + 1)
  let s := { s with mem := m }
  let (x18, iushort, v) ← nv <| strnum_value_u .ushort s.mem (some iushort) (some v) 0
  let f := f ++ if decide (x18 = ERANGE) then [] else [1638]
  let (v, buf, s) ← bo <| strbuf_printf cfg s (some buf) (fun _ => .text [52, 50, 57, 52, 57, 54, 55, 50, 57, 53])
  let n ← getSize s.mem buf
  let c ← load s.mem (cstrOf buf + n - 1)
  let m ← store s.mem (cstrOf buf + n - 1) (c + 1)
  let s := { s with mem := m }
  let (x19, iuint, v) ← nv <| strnum_value_u .uint s.mem (some iuint) (some v) 0
  let f := f ++ if decide (x19 = ERANGE) then [] else [1639]
  let (buf, s) ← ds <| strbuf_destroy s (some buf)
  let f := f ++ if (decide (buf = 0)) then [] else [1795]
  .ok f

theorem test_strnum_value_3_passes : test_strnum_value_3 = .ok [] := by decide +kernel

/-- test/test.c `test_strnum_value`, lines 1640 to 1645. -/
def test_strnum_value_4 : Res (List Nat) := do
  let lits : List (List Byte) := []
  let lit := litAddr lits
  let s := start lits
  let f : List Nat := []
  let (x1, s) ← strbuf_create_empty dflt s 0 none
  let buf := x1
  let iulong := (0 : Nat)
  let iullong := (0 : Nat)
  let ichar := (0 : Int)
  let ishort := (0 : Int)
  let f := f ++ if (decide (buf ≠ 0)) then [] else [1598]
  let (v, buf, s) ← bo <| strbuf_printf cfg s (some buf) (fun _ => .text [49, 56, 52, 52, 54, 55, 52, 52, 48, 55, 51, 55, 48, 57, 53, 53, 49, 54, 49, 53])
  let n ← getSize s.mem buf
  let c ← load s.mem (cstrOf buf + n - 1)
  let m ← store s.mem (cstrOf buf + n - 1) (c + 1)
  let s := { s with mem := m }
  let (x20, iulong, v) ← nv <| strnum_value_u .ulong s.mem (some iulong) (some v) 0
  let f := f ++ if decide (x20 = ERANGE) then [] else [1640]
  let (v, buf, s) ← bo <| strbuf_printf cfg s (some buf) (fun _ => .text [49, 56, 52, 52, 54, 55, 52, 52, 48, 55, 51, 55, 48, 57, 53, 53, 49, 54, 49, 53])
  let n ← getSize s.mem buf
  let c ← load s.mem (cstrOf buf + n - 1)
  let m ← store s.mem (cstrOf buf + n - 1) (c + 1)
  let s := { s with mem := m }
  let (x21, iullong, v) ← nv <| strnum_value_u .ullong s.mem (some iullong) (some v) 0
  let f := f ++ if decide (x21 = ERANGE) then [] else [1641]
  let (v, buf, s) ← bo <| strbuf_printf cfg s (some buf) (fun _ => .text [45, 49, 50, 56])
  let n ← getSize s.mem buf
  let c ← load s.mem (cstrOf buf + n - 1)
  let m ← store s.mem (cstrOf buf + n - 1) (c + 1)
  let s := { s with mem := m }
  let (x22, ichar, v) ← nv <| strnum_value_s .char s.mem (some ichar) (some v) 0
  let f := f ++ if decide (x22 = ERANGE) then [] else [1642]
  let (v, buf, s) ← bo <| strbuf_printf cfg s (some buf) (fun _ => .text [49, 50, 55])
  let n ← getSize s.mem buf
  let c ← load s.mem (cstrOf buf + n - 1)
  let m ← store s.mem (cstrOf buf + n - 1) (c + 1)
  let s := { s with mem := m }
  let (x23, ichar, v) ← nv <| strnum_value_s .char s.mem (some ichar) (some v) 0
  let f := f ++ if decide (x23 = ERANGE) then [] else [1643]
  let (v, buf, s) ← bo <| strbuf_printf cfg s (some buf) (fun _ => .text [45, 51, 50, 55, 54, 56])
  let n ← getSize s.mem buf
  let c ← load s.mem (cstrOf buf + n - 1)
  let m ← store s.mem (cstrOf buf + n - 1) (c + 1)
  let s := { s with mem := m }
  let (x24, ishort, v) ← nv <| strnum_value_s .short s.mem (some ishort) (some v) 0
  let f := f ++ if decide (x24 = ERANGE) then [] else [1644]
  let (v, buf, s) ← bo <| strbuf_printf cfg s (some buf) (fun _ => .text [51, 50, 55, 54, 55])
  let n ← getSize s.mem buf
  let c ← load s.mem (cstrOf buf + n - 1)
  let m ← store s.mem (cstrOf buf + n - 1) (c + 1)
  let s := { s with mem := m }
  let (x25, ishort, v) ← nv <| strnum_value_s .short s.mem (some ishort) (some v) 0
  let f := f ++ if decide (x25 = ERANGE) then [] else [1645]
  let (buf, s) ← ds <| strbuf_destroy s (some buf)
  let f := f ++ if (decide (buf = 0)) then [] else [1795]
  .ok f

theorem test_strnum_value_4_passes : test_strnum_value_4 = .ok [] := by decide +kernel

/-- test/test.c `test_strnum_value`, lines 1646 to 1651. -/
def test_strnum_value_5 : Res (List Nat) := do
  let lits : List (List Byte) := []
  let lit := litAddr lits
  let s := start lits
  let f : List Nat := []
  let (x1, s) ← strbuf_create_empty dflt s 0 none
  let buf := x1
  let iint := (0 : Int)
  let ilong := (0 : Int)
  let illong := (0 : Int)
  let f := f ++ if (decide (buf ≠ 0)) then [] else [1598]
  let (v, buf, s) ← bo <| strbuf_printf cfg s (some buf) (fun _ => .text [45, 50, 49, 52, 55, 52, 56, 51, 54, 52, 56])
  let n ← getSize s.mem buf
  let c ← load s.mem (cstrOf buf + n - 1)
  let m ← store s.mem (cstrOf buf + n - 1) (c + 1)
  let s := { s with mem := m }
  let (x26, iint, v) ← nv <| strnum_value_s .int s.mem (some iint) (some v) 0
  let f := f ++ if decide (x26 = ERANGE) then [] else [1646]
  let (v, buf, s) ← bo <| strbuf_printf cfg s (some buf) (fun _ => .text [50, 49, 52, 55, 52, 56, 51, 54, 52, 55])
  let n ← getSize s.mem buf
  let c ← load s.mem (cstrOf buf + n - 1)
  let m ← store s.mem (cstrOf buf + n - 1) (c + 1)
  let s := { s with mem := m }
  let (x27, iint, v) ← nv <| strnum_value_s .int s.mem (some iint) (some v) 0
  let f := f ++ if decide (x27 = ERANGE) then [] else [1647]
  let (v, buf, s) ← bo <| strbuf_printf cfg s (some buf) (fun _ => .text [45, 57, 50, 50, 51, 51, 55, 50, 48, 51, 54, 56, 53, 52, 55, 55, 53, 56, 48, 56])
  let n ← getSize s.mem buf
  let c ← load s.mem (cstrOf buf + n - 1)
  let m ← store s.mem (cstrOf buf + n - 1) (c + 1)
  let s := { s with mem := m }
  let (x28, ilong, v) ← nv <| strnum_value_s .long s.mem (some ilong) (some v) 0
  let f := f ++ if decide (x28 = ERANGE) then [] else [1648]
  let (v, buf, s) ← bo <| strbuf_printf cfg s (some buf) (fun _ => .text [57, 50, 50, 51, 51, 55, 50, 48, 51, 54, 56, 53, 52, 55, 55, 53, 56, 48, 55])
  let n ← getSize s.mem buf
  let c ← load s.mem (cstrOf buf + n - 1)
  let m ← store s.mem (cstrOf buf + n - 1) (c + 1)
  let s := { s with mem := m }
  let (x29, ilong, v) ← nv <| strnum_value_s .long s.mem (some ilong) (some v) 0
  let f := f ++ if decide (x29 = ERANGE) then [] else [1649]
  let (v, buf, s) ← bo <| strbuf_printf cfg s (some buf) (fun _ => .text [45, 57, 50, 50, 51, 51, 55, 50, 48, 51, 54, 56, 53, 52, 55, 55, 53, 56, 48, 56])
  let n ← getSize s.mem buf
  let c ← load s.mem (cstrOf buf + n - 1)
  let m ← store s.mem (cstrOf buf + n - 1) (c + 1)
  let s := { s with mem := m }
  let (x30, illong, v) ← nv <| strnum_value_s .llong s.mem (some illong) (some v) 0
  let f := f ++ if decide (x30 = ERANGE) then [] else [1650]
  let (v, buf, s) ← bo <| strbuf_printf cfg s (some buf) (fun _ => .text [57, 50, 50, 51, 51, 55, 50, 48, 51, 54, 56, 53, 52, 55, 55, 53, 56, 48, 55])
  let n ← getSize s.mem buf
  let c ← load s.mem (cstrOf buf + n - 1)
  let m ← store s.mem (cstrOf buf + n - 1) (c + 1)
  let s := { s with mem := m }
  let (x31, illong, v) ← nv <| strnum_value_s .llong s.mem (some illong) (some v) 0
  let f := f ++ if decide (x31 = ERANGE) then [] else [1651]
  let (buf, s) ← ds <| strbuf_destroy s (some buf)
  let f := f ++ if (decide (buf = 0)) then [] else [1795]
  .ok f

theorem test_strnum_value_5_passes : test_strnum_value_5 = .ok [] := by decide +kernel

/-- test/test.c `test_strnum_value`, lines 1656 to 1681. -/
def test_strnum_value_6 : Res (List Nat) := do
  let lits : List (List Byte) := [[32, 49, 50, 51],
    [48, 98, 49, 48, 48, 49],
    [48, 66, 49, 48, 48, 49],
    [48, 120, 51, 102, 69, 49],
    [48, 88, 51, 70, 101, 49]]
  let lit := litAddr lits
  let s := start lits
  let f : List Nat := []
  let (x1, s) ← strbuf_create_empty dflt s 0 none
  let buf := x1
  let iint := (0 : Int)
  let f := f ++ if (decide (buf ≠ 0)) then [] else [1598]
  let x32 ← cstr s.mem (lit 0)
  let v := x32
  let (x33, iint, v) ← nv <| strnum_value_s .int s.mem (some iint) (some v) 0
  let err := x33
  let f := f ++ if (decide (err = 0)) then [] else [1656]
  let f := f ++ if (decide ((iint : Int) = 123)) then [] else [1657]
  let iint := (0 : Int)
  let x34 ← cstr s.mem (lit 0)
  let v := x34
  let (x35, iint, v) ← nv <| strnum_value_s .int s.mem (some iint) (some v) STRNUM_NOSPACE
  let err := x35
  let f := f ++ if (decide ((err : Int) = EINVAL)) then [] else [1662]
  let f := f ++ if (decide ((iint : Int) = 0)) then [] else [1663]
  let x36 ← cstr s.mem (lit 1)
  let v := x36
  let (x37, iint, v) ← nv <| strnum_value_s .int s.mem (some iint) (some v) 0
  let err := x37
  let f := f ++ if (decide (err = 0)) then [] else [1668]
  let f := f ++ if (decide ((iint : Int) = 9)) then [] else [1669]
  let x38 ← cstr s.mem (lit 2)
  let v := x38
  let (x39, iint, v) ← nv <| strnum_value_s .int s.mem (some iint) (some v) 0
  let err := x39
  let f := f ++ if (decide (err = 0)) then [] else [1672]
  let f := f ++ if (decide ((iint : Int) = 9)) then [] else [1673]
  let x40 ← cstr s.mem (lit 3)
  let v := x40
  let (x41, iint, v) ← nv <| strnum_value_s .int s.mem (some iint) (some v) 0
  let err := x41
  let f := f ++ if (decide (err = 0)) then [] else [1676]
  let f := f ++ if (decide ((iint : Int) = 16353)) then [] else [1677]
  let x42 ← cstr s.mem (lit 4)
  let v := x42
  let (x43, iint, v) ← nv <| strnum_value_s .int s.mem (some iint) (some v) 0
  let err := x43
  let f := f ++ if (decide (err = 0)) then [] else [1680]
  let f := f ++ if (decide ((iint : Int) = 16353)) then [] else [1681]
  let (buf, s) ← ds <| strbuf_destroy s (some buf)
  let f := f ++ if (decide (buf = 0)) then [] else [1795]
  .ok f

theorem test_strnum_value_6_passes : test_strnum_value_6 = .ok [] := by decide +kernel

/-- test/test.c `test_strnum_value`, lines 1687 to 1722. -/
def test_strnum_value_7 : Res (List Nat) := do
  let lits : List (List Byte) := [[48, 98, 49, 48, 48, 49],
    [48, 66, 49, 48, 48, 49],
    [98, 49, 48, 48, 49],
    [66, 49, 48, 48, 49],
    [48, 120, 51, 70, 55, 49, 49],
    [120, 51, 70, 55, 49, 49],
    [43, 49, 50, 51],
    [49, 48, 48, 49]]
  let lit := litAddr lits
  let s := start lits
  let f : List Nat := []
  let (x1, s) ← strbuf_create_empty dflt s 0 none
  let buf := x1
  let iint := (0 : Int)
  let f := f ++ if (decide (buf ≠ 0)) then [] else [1598]
  let x44 ← cstr s.mem (lit 0)
  let v := x44
  let iint := (1 : Int)
  let (x45, iint, v) ← nv <| strnum_value_s .int s.mem (some iint) (some v) STRNUM_NOBX
  let err := x45
  let f := f ++ if (decide (err = 0)) then [] else [1687]
  let f := f ++ if (decide ((iint : Int) = 0)) then [] else [1688]
  let x46 ← cstr s.mem (lit 2)
  let x47 ← strview_is_match_strview s.mem v x46
  let f := f ++ if x47 then [] else [1689]
  let x48 ← cstr s.mem (lit 1)
  let v := x48
  let iint := (1 : Int)
  let (x49, iint, v) ← nv <| strnum_value_s .int s.mem (some iint) (some v) STRNUM_NOBX
  let err := x49
  let f := f ++ if (decide (err = 0)) then [] else [1693]
  let f := f ++ if (decide ((iint : Int) = 0)) then [] else [1694]
  let x50 ← cstr s.mem (lit 3)
  let x51 ← strview_is_match_strview s.mem v x50
  let f := f ++ if x51 then [] else [1695]
  let x52 ← cstr s.mem (lit 4)
  let v := x52
  let iint := (1 : Int)
  let (x53, iint, v) ← nv <| strnum_value_s .int s.mem (some iint) (some v) STRNUM_NOBX
  let err := x53
  let f := f ++ if (decide (err = 0)) then [] else [1699]
  let f := f ++ if (decide ((iint : Int) = 0)) then [] else [1700]
  let x54 ← cstr s.mem (lit 5)
  let x55 ← strview_is_match_strview s.mem v x54
  let f := f ++ if x55 then [] else [1701]
  let x56 ← cstr s.mem (lit 4)
  let v := x56
  let iint := (1 : Int)
  let (x57, iint, v) ← nv <| strnum_value_s .int s.mem (some iint) (some v) STRNUM_NOBX
  let err := x57
  let f := f ++ if (decide (err = 0)) then [] else [1705]
  let f := f ++ if (decide ((iint : Int) = 0)) then [] else [1706]
  let x58 ← cstr s.mem (lit 5)
  let x59 ← strview_is_match_strview s.mem v x58
  let f := f ++ if x59 then [] else [1707]
  let x60 ← cstr s.mem (lit 6)
  let v := x60
  let iint := (0 : Int)
  let (x61, iint, v) ← nv <| strnum_value_s .int s.mem (some iint) (some v) STRNUM_NOSIGN
  let err := x61
  let f := f ++ if (decide ((err : Int) = EINVAL)) then [] else [1713]
  let f := f ++ if (decide ((iint : Int) = 0)) then [] else [1714]
  let x62 ← cstr s.mem (lit 6)
  let x63 ← strview_is_match_strview s.mem v x62
  let f := f ++ if x63 then [] else [1715]
  let x64 ← cstr s.mem (lit 7)
  let v := x64
  let iint := (0 : Int)
  let (x65, iint, v) ← nv <| strnum_value_s .int s.mem (some iint) (some v) STRNUM_BASE_BIN
  let err := x65
  let f := f ++ if (decide (err = 0)) then [] else [1721]
  let f := f ++ if (decide ((iint : Int) = 9)) then [] else [1722]
  let (buf, s) ← ds <| strbuf_destroy s (some buf)
  let f := f ++ if (decide (buf = 0)) then [] else [1795]
  .ok f

theorem test_strnum_value_7_passes : test_strnum_value_7 = .ok [] := by decide +kernel

/-- test/test.c `test_strnum_value`, lines 1728 to 1764. -/
def test_strnum_value_8 : Res (List Nat) := do
  let lits : List (List Byte) := [[48, 98, 49, 48, 48, 49],
    [48, 120, 49, 51, 70],
    [120, 49, 51, 70],
    [51, 101, 70, 49],
    [48, 120, 51, 101, 70, 49],
    [48, 98, 49, 48, 48]]
  let lit := litAddr lits
  let s := start lits
  let f : List Nat := []
  let (x1, s) ← strbuf_create_empty dflt s 0 none
  let buf := x1
  let iint := (0 : Int)
  let ifloat := Flt.fin 0
  let f := f ++ if (decide (buf ≠ 0)) then [] else [1598]
  let x66 ← cstr s.mem (lit 0)
  let v := x66
  let iint := (0 : Int)
  let (x67, iint, v) ← nv <| strnum_value_s .int s.mem (some iint) (some v) STRNUM_BASE_BIN
  let err := x67
  let f := f ++ if (decide (err = 0)) then [] else [1728]
  let f := f ++ if (decide ((iint : Int) = 9)) then [] else [1729]
  let x68 ← cstr s.mem (lit 1)
  let v := x68
  let iint := (1 : Int)
  let (x69, iint, v) ← nv <| strnum_value_s .int s.mem (some iint) (some v) STRNUM_BASE_BIN
  let err := x69
  let f := f ++ if (decide (err = 0)) then [] else [1735]
  let f := f ++ if (decide ((iint : Int) = 0)) then [] else [1736]
  let x70 ← cstr s.mem (lit 2)
  let x71 ← strview_is_match_strview s.mem v x70
  let f := f ++ if x71 then [] else [1737]
  let x72 ← cstr s.mem (lit 3)
  let v := x72
  let iint := (0 : Int)
  let (x73, iint, v) ← nv <| strnum_value_s .int s.mem (some iint) (some v) STRNUM_BASE_HEX
  let err := x73
  let f := f ++ if (decide (err = 0)) then [] else [1743]
  let f := f ++ if (decide ((iint : Int) = 16113)) then [] else [1744]
  let x74 ← cstr s.mem (lit 4)
  let v := x74
  let iint := (0 : Int)
  let (x75, iint, v) ← nv <| strnum_value_s .int s.mem (some iint) (some v) STRNUM_BASE_HEX
  let err := x75
  let f := f ++ if (decide (err = 0)) then [] else [1750]
  let f := f ++ if (decide ((iint : Int) = 16113)) then [] else [1751]
  let x76 ← cstr s.mem (lit 5)
  let v := x76
  let iint := (0 : Int)
  let (x77, iint, v) ← nv <| strnum_value_s .int s.mem (some iint) (some v) STRNUM_BASE_HEX
  let err := x77
  let f := f ++ if (decide (err = 0)) then [] else [1757]
  let f := f ++ if (decide ((iint : Int) = 45312)) then [] else [1758]
  let (x78, buf, s) ← bo <| strbuf_printf cfg s (some buf) (fun _ => .text [51, 46, 51, 57, 54, 48, 49, 56, 101, 43, 51, 56])
  let v := x78
  let (x79, ifloat, v) ← nv <| strnum_value_f (ieeeOps binary32 (exactPow10 binary32)) .float s.mem (some ifloat) (some v) 0
  let err := x79
  let f := f ++ if (decide (err = 0)) then [] else [1763]
  let f := f ++ if ((Flt.lt (.fin ((2 ^ 128 - 2 ^ 104 : Rat) * (997 / 1000 : Rat))) ifloat) && (Flt.lt ifloat (.fin ((2 ^ 128 - 2 ^ 104 : Rat) * (999 / 1000 : Rat))))) then [] else [1764]
  let (buf, s) ← ds <| strbuf_destroy s (some buf)
  let f := f ++ if (decide (buf = 0)) then [] else [1795]
  .ok f

theorem test_strnum_value_8_passes : test_strnum_value_8 = .ok [] := by decide +kernel

/-- test/test.c `test_strnum_value`, lines 1767 to 1768. -/
def test_strnum_value_9 : Res (List Nat) := do
  let lits : List (List Byte) := []
  let lit := litAddr lits
  let s := start lits
  let f : List Nat := []
  let (x1, s) ← strbuf_create_empty dflt s 0 none
  let buf := x1
  let idouble := Flt.fin 0
  let f := f ++ if (decide (buf ≠ 0)) then [] else [1598]
  let (x80, buf, s) ← bo <| strbuf_printf cfg s (some buf) (fun _ => .text [49, 46, 55, 57, 52, 48, 57, 56, 101, 43, 51, 48, 56])
  let v := x80
  let (x81, idouble, v) ← nv <| strnum_value_f (ieeeOps binary64 (exactPow10 binary64)) .double s.mem (some idouble) (some v) 0
  let err := x81
  let f := f ++ if (decide (err = 0)) then [] else [1767]
  let f := f ++ if ((Flt.lt (.fin ((2 ^ 1024 - 2 ^ 971 : Rat) * (997 / 1000 : Rat))) idouble) && (Flt.lt idouble (.fin ((2 ^ 1024 - 2 ^ 971 : Rat) * (999 / 1000 : Rat))))) then [] else [1768]
  let (buf, s) ← ds <| strbuf_destroy s (some buf)
  let f := f ++ if (decide (buf = 0)) then [] else [1795]
  .ok f

theorem test_strnum_value_9_passes : test_strnum_value_9 = .ok [] := by decide +kernel

/-- test/test.c `test_strnum_value`, lines 1771 to 1772. -/
def test_strnum_value_10 : Res (List Nat) := do
  let lits : List (List Byte) := []
  let lit := litAddr lits
  let s := start lits
  let f : List Nat := []
  let (x1, s) ← strbuf_create_empty dflt s 0 none
  let buf := x1
  let ildouble := Flt.fin 0
  let f := f ++ if (decide (buf ≠ 0)) then [] else [1598]
  let (x82, buf, s) ← bo <| strbuf_printf cfg s (some buf) (fun _ => .text [49, 46, 49, 56, 55, 51, 53, 50, 101, 43, 52, 57, 51, 50])
  let v := x82
  let (x83, ildouble, v) ← nv <| strnum_value_f (ieeeOps extended80 (exactPow10 extended80)) .ldouble s.mem (some ildouble) (some v) 0
  let err := x83
  let f := f ++ if (decide (err = 0)) then [] else [1771]
  let f := f ++ if ((Flt.lt (.fin ((2 ^ 16384 - 2 ^ 16320 : Rat) * (997 / 1000 : Rat))) ildouble) && (Flt.lt ildouble (.fin ((2 ^ 16384 - 2 ^ 16320 : Rat) * (999 / 1000 : Rat))))) then [] else [1772]
  let (buf, s) ← ds <| strbuf_destroy s (some buf)
  let f := f ++ if (decide (buf = 0)) then [] else [1795]
  .ok f

theorem test_strnum_value_10_passes : test_strnum_value_10 = .ok [] := by decide +kernel

/-- test/test.c `test_strnum_value`, lines 1775 to 1776. -/
def test_strnum_value_11 : Res (List Nat) := do
  let lits : List (List Byte) := []
  let lit := litAddr lits
  let s := start lits
  let f : List Nat := []
  let (x1, s) ← strbuf_create_empty dflt s 0 none
  let buf := x1
  let ifloat := Flt.fin 0
  let f := f ++ if (decide (buf ≠ 0)) then [] else [1598]
  let (x84, buf, s) ← bo <| strbuf_printf cfg s (some buf) (fun _ => .text [49, 46, 49, 55, 51, 49, 52, 51, 101, 45, 51, 56])
  let v := x84
  let (x85, ifloat, v) ← nv <| strnum_value_f (ieeeOps binary32 (exactPow10 binary32)) .float s.mem (some ifloat) (some v) 0
  let err := x85
  let f := f ++ if (decide (err = 0)) then [] else [1775]
  let f := f ++ if ((Flt.lt (.fin ((1 / 2 ^ 126 : Rat) * (997 / 1000 : Rat))) ifloat) && (Flt.lt ifloat (.fin ((1 / 2 ^ 126 : Rat) * (999 / 1000 : Rat))))) then [] else [1776]
  let (buf, s) ← ds <| strbuf_destroy s (some buf)
  let f := f ++ if (decide (buf = 0)) then [] else [1795]
  .ok f

theorem test_strnum_value_11_passes : test_strnum_value_11 = .ok [] := by decide +kernel

/-- test/test.c `test_strnum_value`, lines 1779 to 1780. -/
def test_strnum_value_12 : Res (List Nat) := do
  let lits : List (List Byte) := []
  let lit := litAddr lits
  let s := start lits
  let f : List Nat := []
  let (x1, s) ← strbuf_create_empty dflt s 0 none
  let buf := x1
  let idouble := Flt.fin 0
  let f := f ++ if (decide (buf ≠ 0)) then [] else [1598]
  let (x86, buf, s) ← bo <| strbuf_printf cfg s (some buf) (fun _ => .text [50, 46, 50, 50, 48, 54, 50, 52, 101, 45, 51, 48, 56])
  let v := x86
  let (x87, idouble, v) ← nv <| strnum_value_f (ieeeOps binary64 (exactPow10 binary64)) .double s.mem (some idouble) (some v) 0
  let err := x87
  let f := f ++ if (decide (err = 0)) then [] else [1779]
  let f := f ++ if ((Flt.lt (.fin ((1 / 2 ^ 1022 : Rat) * (997 / 1000 : Rat))) idouble) && (Flt.lt idouble (.fin ((1 / 2 ^ 1022 : Rat) * (999 / 1000 : Rat))))) then [] else [1780]
  let (buf, s) ← ds <| strbuf_destroy s (some buf)
  let f := f ++ if (decide (buf = 0)) then [] else [1795]
  .ok f

theorem test_strnum_value_12_passes : test_strnum_value_12 = .ok [] := by decide +kernel

/-- test/test.c `test_strnum_value`, lines 1783 to 1784. -/
def test_strnum_value_13 : Res (List Nat) := do
  let lits : List (List Byte) := []
  let lit := litAddr lits
  let s := start lits
  let f : List Nat := []
  let (x1, s) ← strbuf_create_empty dflt s 0 none
  let buf := x1
  let ildouble := Flt.fin 0
  let f := f ++ if (decide (buf ≠ 0)) then [] else [1598]
  let (x88, buf, s) ← bo <| strbuf_printf cfg s (some buf) (fun _ => .text [51, 46, 51, 53, 53, 51, 55, 57, 101, 45, 52, 57, 51, 50])
  let v := x88
  let (x89, ildouble, v) ← nv <| strnum_value_f (ieeeOps extended80 (exactPow10 extended80)) .ldouble s.mem (some ildouble) (some v) 0
  let err := x89
  let f := f ++ if (decide (err = 0)) then [] else [1783]
  let f := f ++ if ((Flt.lt (.fin ((1 / 2 ^ 16382 : Rat) * (997 / 1000 : Rat))) ildouble) && (Flt.lt ildouble (.fin ((1 / 2 ^ 16382 : Rat) * (999 / 1000 : Rat))))) then [] else [1784]
  let (buf, s) ← ds <| strbuf_destroy s (some buf)
  let f := f ++ if (decide (buf = 0)) then [] else [1795]
  .ok f

theorem test_strnum_value_13_passes : test_strnum_value_13 = .ok [] := by decide +kernel

/-- test/test.c `test_strnum_value`, lines 1790 to 1792. -/
def test_strnum_value_14 : Res (List Nat) := do
  let lits : List (List Byte) := [[51, 46, 49, 55, 69, 50],
    [69, 50]]
  let lit := litAddr lits
  let s := start lits
  let f : List Nat := []
  let (x1, s) ← strbuf_create_empty dflt s 0 none
  let buf := x1
  let ifloat := Flt.fin 0
  let f := f ++ if (decide (buf ≠ 0)) then [] else [1598]
  let x90 ← cstr s.mem (lit 0)
  let v := x90
  let ifloat := Flt.fin 0
  let (x91, ifloat, v) ← nv <| strnum_value_f (ieeeOps binary32 (exactPow10 binary32)) .float s.mem (some ifloat) (some v) STRNUM_NOEXP
  let err := x91
  let f := f ++ if (decide (err = 0)) then [] else [1790]
  let f := f ++ if ((Flt.lt (.fin (31699 / 10000 : Rat)) ifloat) && (Flt.lt ifloat (.fin (31701 / 10000 : Rat)))) then [] else [1791]
  let x92 ← cstr s.mem (lit 1)
  let x93 ← strview_is_match_strview s.mem v x92
  let f := f ++ if x93 then [] else [1792]
  let (buf, s) ← ds <| strbuf_destroy s (some buf)
  let f := f ++ if (decide (buf = 0)) then [] else [1795]
  .ok f

theorem test_strnum_value_14_passes : test_strnum_value_14 = .ok [] := by decide +kernel

end CStr.Conform
