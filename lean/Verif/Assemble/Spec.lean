import Verif.Assemble.Model
import Verif.Region.Spec
import Verif.Dyn.Spec

/-!
# What a seed, a tangent and a block mean

A tangent has one number per direction, batch row, site and base component of the row variable (`Verif.Region.val`). The numbers
of a variable are numbered sites first: component `b` of site `s` has number `ravel (S ++ B) (s ++ b)`, and so has a direction
along a column variable. A block holds the number of a tangent where row and column meet.
-/

namespace Verif.Assemble

open Verif.Region Verif.Region.Arr Verif.Dyn

variable {α : Type}

/-- `w` is a tangent with `K` directions, batch shape `D`, sites `S` and base shape `B`. A direction axis stored as the diagonal
against a site axis has as many directions as that axis has sites. -/
structure Tan (w : W α) (K D S B : List ℕ) : Prop where
  good : Good w
  kn : w.kn = K.length
  sb : w.sb = S.length
  base : w.base = B.length
  rank : w.arr.shape.length = K.length + (D.length + (S.length + B.length))
  ext : ∀ j < S.length, extent w j = S.getD j 0
  diag : ∀ i p, Diag w i p → K.getD i 0 = S.getD p 0
  full : ∀ i < K.length, (∀ p, ¬ Diag w i p) → w.arr.shape.getD i 0 = K.getD i 0
  dyn : ∀ i < D.length, w.arr.shape.getD (K.length + i) 0 = D.getD i 0
  bas : ∀ i < B.length, w.arr.shape.getD (K.length + (D.length + (S.length + i))) 0 = B.getD i 0

/-- The directions of a seed of a variable with sites `S` and base shape `B`: one axis per site axis, one axis for the
components; the latter is left out for a scalar that has sites. -/
def seedDirs (S B : List ℕ) : List ℕ := if B = [] ∧ S ≠ [] then S else S ++ [B.prod]

/-- A position in a list of sizes. -/
def Within (i s : List ℕ) : Prop := List.Forall₂ (· < ·) i s

/-- Direction axis `i` is not tied to the sites: no diagonal. -/
def Loose (w : W α) (i : ℕ) : Prop := i < w.kn ∧ ∀ p, ¬ Diag w i p

/-- Directions `κ` of a tangent that belong to site `s` and column component `c`. -/
def Points (w : W α) (κ s : List ℕ) (c : ℕ) : Prop :=
  (∀ i p, Diag w i p → κ.getD i 0 = s.getD p 0) ∧ ∀ i, Loose w i → κ.getD i 0 = c

/-- Site axes a group keeps. -/
def kept (st : Str) (s : List ℕ) : List ℕ := match st with
  | .block => s
  | .dense => []

/-- Number of rows (columns) of a variable with sites `S` and base size `n`. -/
def width (st : Str) (S : List ℕ) (n : ℕ) : ℕ := match st with
  | .block => n
  | .dense => S.prod * n

/-- Row (column) of component `c` of site `s`. -/
def line (st : Str) (S : List ℕ) (n : ℕ) (s : List ℕ) (c : ℕ) : ℕ := match st with
  | .block => c
  | .dense => ravel S s * n + c

/-- `D` may stand for `M` in a broadcast: axes are matched from the right and have the same size or size 1. -/
def Stretches (D M : List ℕ) : Prop :=
  D.length ≤ M.length ∧ ∀ i < D.length, D.getD i 0 = 1 ∨ D.getD i 0 = M.getD (M.length - D.length + i) 0

/-- Position in a tensor of batch shape `D` for position `d` of a larger batch. -/
def back (D d : List ℕ) : List ℕ := clamp D (d.drop (d.length - D.length))

end Verif.Assemble
