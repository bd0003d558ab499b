import Verif.Assemble.Cells

/-!
# What a table of cells and a table of blocks have to do with each other
-/

namespace Verif.Assemble.Cells

variable {α : Type}

/-- The place of a variable in its group: what comes before it takes `off` rows (or columns). -/
def Placed (g : Group) (n : String) (off size : ℕ) : Prop :=
  ∃ p q, g = p ++ (n, size) :: q ∧ off = (p.map Prod.snd).sum

/-- A layout that the matrix functions support: dense groups, none of them empty, each variable once. -/
structure Good (L : Layout) : Prop where
  dense : ∀ b ∈ L.dense, b = true
  full : ∀ g ∈ L.groups, g ≠ []
  nodup : L.names.Nodup

/-- Two blocks are the same numbers. -/
def Same (A B : Blk α) : Prop := A.r = B.r ∧ A.c = B.c ∧ ∀ i j, i < A.r → j < A.c → A.v i j = B.v i j

/-- The size of a group. -/
def total (g : Group) : ℕ := (g.map Prod.snd).sum

/-- One block for each pair of groups, of the size of the groups. -/
def Fits (L K : Layout) (T : List (List (Blk α))) : Prop :=
  List.Forall₂ (fun rg row => List.Forall₂ (fun cg t => t.r = total rg ∧ t.c = total cg) K.groups row) L.groups T

/-- Each cell of two variables of the layouts has the size of these variables. -/
def Sized (L K : Layout) (d : CellMap α) : Prop :=
  ∀ g ∈ L.groups, ∀ h ∈ K.groups, ∀ r ∈ g, ∀ c ∈ h, ∀ b, get d r.1 c.1 = some b → b.r = r.2 ∧ b.c = c.2

end Verif.Assemble.Cells
