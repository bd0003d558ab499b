import Verif.Dyn.Model

/-!
# What the regions of a tensor mean

A tensor has one number per batch row, site and base component. A place is a triple of multi-indices, and so is a shape.
-/

namespace Verif.Dyn

open Verif.Region

variable {α : Type}

/-- One list per region: sizes, or positions. -/
structure Trip where
  d : List ℕ
  s : List ℕ
  b : List ℕ

/-- The list of one region. -/
def Trip.sel (i : Trip) : Reg → List ℕ
  | .batch => i.d
  | .sub => i.s
  | .base => i.b

/-- The same with another list for one region. -/
def Trip.upd (i : Trip) : Reg → List ℕ → Trip
  | .batch, x => { i with d := x }
  | .sub, x => { i with s := x }
  | .base, x => { i with b := x }

/-- The regions in storage order. -/
def Trip.flat (i : Trip) : List ℕ := i.d ++ (i.s ++ i.b)

/-- A place within a shape. -/
def Trip.In (i σ : Trip) : Prop := List.Forall₂ (· < ·) i.d σ.d ∧ List.Forall₂ (· < ·) i.s σ.s ∧ List.Forall₂ (· < ·) i.b σ.b

/-- The tensor has these region shapes. -/
def Laid (t : T α) (σ : Trip) : Prop := t.arr.shape = σ.flat ∧ t.bn = σ.d.length ∧ t.sn = σ.s.length

/-- The number a tensor holds at a place. -/
def T.val (t : T α) (i : Trip) : α := t.arr.get i.flat

/-- `u` is `t` with region `r` rearranged: its shape is `R'`, and the number at position `x` of the region is the number `t` has
at `src x`, the position in the other regions being the same. -/
def Acts (t u : T α) (r : Reg) (σ : Trip) (R' : List ℕ) (src : List ℕ → List ℕ) : Prop :=
  Laid u (σ.upd r R') ∧ ∀ i : Trip, i.In (σ.upd r R') → u.val i = t.val (i.upd r (src (i.sel r)))

/-- The number a tensor contributes at a place of a tensor with more axes: extra leading batch and sub-batch positions are
ignored, and so is the position along an axis of size 1. -/
def T.bval (t : T α) (d s b : List ℕ) : α :=
  t.arr.get (clamp t.arr.shape (d.drop (d.length - t.bn) ++ (s.drop (s.length - t.sn) ++ b)))

/-! ### Indexing -/

open Verif.Region.Arr

/-- The positions a slice selects from an axis of size `n`, in order: from `lo` (inclusive) to `hi` (exclusive), a negative bound
counting from the end, every `step`-th. -/
def positions (n : ℕ) (lo hi : Option ℤ) (step : ℕ) : List ℕ :=
  let place : ℤ → ℤ := fun b => if b < 0 then max (b + n) 0 else b
  let first : ℤ := (lo.map place).getD 0
  let stop : ℤ := (hi.map place).getD n
  (List.range n).filter fun (k : ℕ) => decide (first ≤ (k : ℤ) ∧ (k : ℤ) < stop ∧ ((k : ℤ) - first) % step = 0)

/-- The sizes left by a key: an integer uses up an axis, a slice keeps the selected positions, `None` makes an axis of size 1. -/
inductive Sized : List Key → List ℕ → List ℕ → Prop
  | rest (sh) : Sized [] sh sh
  | newaxis {ks sh sh'} : Sized ks sh sh' → Sized (.newaxis :: ks) sh (1 :: sh')
  | int {ks sh sh' i n} : Sized ks sh sh' → Sized (.int i :: ks) (n :: sh) sh'
  | slice {ks sh sh' lo hi step n} : Sized ks sh sh' → Sized (.slice lo hi step :: ks) (n :: sh) ((positions n lo hi step).length :: sh')

/-- A key applied to an axis list: the new position `x` reads the old position `o`. -/
inductive Reads : List Key → List ℕ → List ℕ → List ℕ → Prop
  | rest {sh x} : Reads [] sh x x
  | newaxis {ks sh x o} : Reads ks sh x o → Reads (.newaxis :: ks) sh (0 :: x) o
  | int {ks sh x o n} {i : ℤ} {k : ℕ} : k < n → (i = k ∨ i = (k : ℤ) - n) → Reads ks sh x o → Reads (.int i :: ks) (n :: sh) x (k :: o)
  | slice {ks sh x o n lo hi step j k} : (positions n lo hi step)[j]? = some k → Reads ks sh x o →
      Reads (.slice lo hi step :: ks) (n :: sh) (j :: x) (k :: o)

/-- The keys that an array accepts: no more entries than axes, integers within the axis, a step that is not zero. -/
def Fits : List Key → List ℕ → Prop
  | [], _ => True
  | .newaxis :: ks, sh => Fits ks sh
  | .int i :: ks, n :: sh => (∃ k : ℕ, k < n ∧ (i = k ∨ i = (k : ℤ) - n)) ∧ Fits ks sh
  | .slice _ _ step :: ks, _ :: sh => step ≠ 0 ∧ Fits ks sh
  | _, _ => False

end Verif.Dyn
