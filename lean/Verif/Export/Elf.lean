import Mathlib.Data.List.Basic
import Mathlib.Tactic.Common

/-!
# The executable-stack patch applied to exported libraries

Model of `_clear_elf_execstack` and `_patch_pt2_noexecstack`
(`/repo/neml2/models/export.py` lines 102-150).

A byte string is a list of naturals; the theorems assume every entry is below 256 where that
matters.  `struct.error` and `IndexError` are the outcome `none`.
-/

namespace Verif.Export

/-- Value of a little-endian byte string (`struct.unpack_from("<...")`). -/
def ofLe : List ℕ → ℕ
  | [] => 0
  | b :: bs => b + 256 * ofLe bs

/-- `n` bytes of a value, lowest first (`struct.pack_into("<...")`). -/
def toLe : ℕ → ℕ → List ℕ
  | 0, _ => []
  | n + 1, w => (w % 256) :: toLe n (w / 256)

/-- `struct.unpack_from(endian + code, buf, off)` for an unsigned code of `n` bytes; a read that
does not fit in the buffer raises `struct.error`. -/
def unpack (little : Bool) (n : ℕ) (buf : List ℕ) (off : ℕ) : Option ℕ :=
  if off + n ≤ buf.length then
    let bs := (buf.drop off).take n
    some (if little then ofLe bs else ofLe bs.reverse)
  else none

/-- `struct.pack_into(endian + "I", buf, off, w)`. -/
def pack4 (little : Bool) (buf : List ℕ) (off w : ℕ) : Option (List ℕ) :=
  if off + 4 ≤ buf.length then
    let bs := if little then toLe 4 w else (toLe 4 w).reverse
    some (buf.take off ++ bs ++ buf.drop (off + 4))
  else none

/-- `PT_GNU_STACK` (export.py:128). -/
def ptGnuStack : ℕ := 0x6474E551

/-- One turn of the loop over the program headers (export.py:129-136).  `flags & PF_X` is the
lowest bit of `flags` and `flags & ~PF_X` takes it away. -/
def patchHeader (little : Bool) (foffIn off : ℕ) (buf : List ℕ) : Option (List ℕ) :=
  (unpack little 4 buf off).bind fun ptype =>
    if ptype = ptGnuStack then
      (unpack little 4 buf (off + foffIn)).bind fun flags =>
        if flags % 2 = 1 then pack4 little buf (off + foffIn) (flags - flags % 2)
        else some buf
    else some buf

/-- The loop `for i in range(e_phnum)`, from header `i` on, with `k` headers to go. -/
def patchFrom (little : Bool) (foffIn phoff entsize : ℕ) : ℕ → ℕ → List ℕ → Option (List ℕ)
  | _, 0, buf => some buf
  | i, k + 1, buf =>
    (patchHeader little foffIn (phoff + i * entsize) buf).bind
      (patchFrom little foffIn phoff entsize (i + 1) k)

/-- `_clear_elf_execstack` (export.py:102-137). -/
def clearExecstack (data : List ℕ) : Option (List ℕ) :=
  if data.take 4 ≠ [0x7f, 0x45, 0x4c, 0x46] then some data
  else
    data[5]?.bind fun b5 =>
    data[4]?.bind fun b4 =>
      let little := b5 == 1
      if b4 = 2 then
        (unpack little 8 data 32).bind fun phoff =>
        (unpack little 2 data 54).bind fun entsize =>
        (unpack little 2 data 56).bind fun phnum =>
          patchFrom little 4 phoff entsize 0 phnum data
      else
        (unpack little 4 data 28).bind fun phoff =>
        (unpack little 2 data 42).bind fun entsize =>
        (unpack little 2 data 44).bind fun phnum =>
          patchFrom little 24 phoff entsize 0 phnum data

/-- A member of the archive: its name and its bytes. -/
abbrev Member := String × List ℕ

/-- `zin.read(name)`: `zipfile` resolves a name through a dictionary filled in directory order, so
the last member of that name is read. -/
def readName (zip : List Member) (name : String) : List ℕ :=
  ((zip.reverse.find? fun m => m.1 = name).map (·.2)).getD []

/-- `_patch_pt2_noexecstack` (export.py:140-152): the archive is rewritten member by member. -/
def patchArchive (zip : List Member) : Option (List Member) :=
  zip.mapM fun m =>
    let data := readName zip m.1
    if m.1.endsWith ".so" then (clearExecstack data).map fun d => (m.1, d)
    else some (m.1, data)

end Verif.Export
