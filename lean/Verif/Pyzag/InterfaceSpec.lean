import Verif.Pyzag.Interface
/-! Specification of a pyzag chunk evaluation, independent of the model's helpers. -/
namespace Verif.Pyzag
variable {K : Type}

/-- What an accepted system looks like: the unknowns are current variables in
nonempty groups, no name is used twice, and every given is a current force, the
old value of an unknown, or the old value of a current force. -/
structure WellPosed (s : Sys K) : Prop where
  current : ∀ v ∈ s.ulay.flatten, v.name.lag = 0
  nonempty : ∀ g ∈ s.ulay, g ≠ []
  distinct : ((s.ulay.flatten ++ s.glay.flatten).map Var.name).Nodup
  given : ∀ v ∈ s.glay.flatten, v.name.lag = 0 ∨
    (∃ w ∈ s.ulay.flatten, v = { w with name := ⟨w.name.base, 1⟩ }) ∨
    (∃ w ∈ s.glay.flatten, w.name.lag = 0 ∧ v = { w with name := ⟨w.name.base, 1⟩ })

/-- The state `st` carries the unknowns and forces of the current step (`xN`,
`fN`) and, under the lagged names the system asks for, those of the previous
step (`xP`, `fP`). -/
structure StateAt (s : Sys K) (st : Name → Option (List K)) (xP xN fP fN : Name → List K) :
    Prop where
  cur : ∀ v ∈ s.ulay.flatten, st v.name = some (xN v.name)
  force : ∀ v ∈ s.glay.flatten, v.name.lag = 0 → st v.name = some (fN v.name)
  oldState : ∀ v ∈ s.ulay.flatten, ∀ w ∈ s.glay.flatten, w.name = ⟨v.name.base, 1⟩ →
    st w.name = some (xP v.name)
  oldForce : ∀ v ∈ s.glay.flatten, v.name.lag = 0 → ∀ w ∈ s.glay.flatten,
    w.name = ⟨v.name.base, 1⟩ → st w.name = some (fP v.name)

/-- The residual and Jacobian a step has to return for the state `st`: the
residual entries in layout order; in the diagonal block the derivative with
respect to the current unknowns; in the subdiagonal block the derivative with
respect to the old unknowns, zero for those the system does not depend on. -/
structure StepIs [Zero K] (s : Sys K) (st : Name → Option (List K)) (p : Step K) : Prop where
  res : p.r = (s.blay.flatten.map fun v => (List.range v.base).map fun a => s.res st v.name a).flatten
  diag : ∀ i j (pr po : List Var) (r : Var) (pc pd : List Var) (c : Var),
    s.blay[i]? = some (pr ++ r :: po) → s.ulay[j]? = some (pc ++ c :: pd) →
    ∀ a < r.base, ∀ b < c.base,
      p.diag i j ((pr.map Var.base).sum + a) ((pc.map Var.base).sum + b)
        = s.jac st r.name a c.name b
  sub : ∀ i j (pr po : List Var) (r : Var) (pc pd : List Var) (c : Var),
    s.blay[i]? = some (pr ++ r :: po) → s.ulay[j]? = some (pc ++ c :: pd) →
    ∀ a < r.base, ∀ b < c.base,
      p.sub i j ((pr.map Var.base).sum + a) ((pc.map Var.base).sum + b)
        = if (⟨c.name.base, 1⟩ : Name) ∈ s.glay.flatten.map Var.name
          then s.jac st r.name a ⟨c.name.base, 1⟩ b else 0

end Verif.Pyzag
