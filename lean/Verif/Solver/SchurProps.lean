import Verif.Solver.Schur
import Mathlib.LinearAlgebra.Matrix.ToLinearEquiv
import Mathlib.Data.Fintype.BigOperators
import Mathlib.Tactic.Ring
import Mathlib.Tactic.Abel
import Mathlib.Tactic.NoncommRing
import Mathlib.Tactic.NormNum
import Mathlib.Tactic.FinCases
import Mathlib.Algebra.Field.Rat

/-!
# Properties of the Schur-complement solver (C24, C70–C72) and of LU caching (C25, C73)

The specification writes the two-group system out as one ordinary linear system: a BLOCK group has
one copy of its unknowns per site, a DENSE group one copy; a BLOCK×BLOCK block is block diagonal over
the sites.
-/

set_option linter.unusedSectionVars false
set_option linter.unusedVariables false
set_option linter.unusedSimpArgs false

namespace Verif.Solver

/-! ## Specification -/

/-- The copies of a group: one per site for BLOCK, a single one for DENSE. -/
def Site (N : ℕ) : Bool → Type
  | true => Fin N
  | false => Unit

instance (N : ℕ) : (b : Bool) → Fintype (Site N b)
  | true => inferInstanceAs (Fintype (Fin N))
  | false => inferInstanceAs (Fintype Unit)

instance (N : ℕ) : (b : Bool) → DecidableEq (Site N b)
  | true => inferInstanceAs (DecidableEq (Fin N))
  | false => inferInstanceAs (DecidableEq Unit)

variable {N : ℕ} {K : Type} [Field K]

/-- The sub-matrix coupling copy `s` of the row group to copy `s'` of the column group.
BLOCK×BLOCK storage keeps only the diagonal `s = s'`
(`neml2/es/assembled.py:921-1000`, "the eye-diagonal of the would-be full grid"). -/
def entry {m n : ℕ} : (rb cb : Bool) → T N (Mat K m n) → Site N rb → Site N cb → Mat K m n
  | true, true, t, s, s' => if s = s' then t.at s else 0
  | true, false, t, s, _ => t.at s
  | false, true, t, _, s' => t.at s'
  | false, false, .dense a, _, _ => a
  | false, false, .sited _, _, _ => 0

/-- A block carries a site axis exactly when its row or its column group is BLOCK. -/
def Shaped {m n : ℕ} (rb cb : Bool) (t : T N (Mat K m n)) : Prop := t.isSited = (rb || cb)

/-- `X` solves the full linear system `A X = B`: every row group, every copy of it, every copy of
the right-hand-side column group. -/
def Solves (A : GMat K N) (B : GRhs K N A.rsz)
    (X : (c : Bool) → T N (Mat K (A.csz c) B.width)) : Prop :=
  ∀ (r : Bool) (s : Site N (A.rblk r)) (s' : Site N B.cblk),
    ∑ c : Bool, ∑ t : Site N (A.cblk c),
      entry (A.rblk r) (A.cblk c) (A.blk r c) s t * entry (A.cblk c) B.cblk (X c) t s'
    = entry (A.rblk r) B.cblk (B.blk r) s s'

/-- All blocks of `A` have the storage shape their group structures ask for. -/
def GMat.Shaped (A : GMat K N) : Prop :=
  ∀ r c, Verif.Solver.Shaped (A.rblk r) (A.cblk c) (A.blk r c)

/-- All blocks of `B` have the storage shape their group structures ask for. -/
def GRhs.Shaped {rblk : Bool → Bool} {rsz : Bool → ℕ} (B : GRhs K N rsz) : Prop :=
  ∀ r, Verif.Solver.Shaped (rblk r) B.cblk (B.blk r)

/-! ## Helper lemmas -/

lemma T.at_map2 {α β γ : Type} (g : α → β → γ) (a : T N α) (b : T N β) (s : Fin N) :
    (T.map2 g a b).at s = g (a.at s) (b.at s) := by
  cases a <;> cases b <;> rfl

lemma isSited_map2 {α β γ : Type} (g : α → β → γ) (a : T N α) (b : T N β) :
    (T.map2 g a b).isSited = (a.isSited || b.isSited) := by
  cases a <;> cases b <;> rfl

lemma tsolve_at {m n w : ℕ} (S : LinSolver K) {A : T N (Mat K m n)} {B : T N (Mat K m w)}
    {X : T N (Mat K n w)} (h : tsolve S A B = some X) (s : Fin N) :
    A.at s * X.at s = B.at s := by
  cases A with
  | dense A =>
    cases B with
    | dense B =>
      simp only [tsolve, Option.map_eq_some_iff] at h
      obtain ⟨Y, hY, rfl⟩ := h
      exact S.sound _ _ _ hY
    | sited B =>
      simp only [tsolve] at h
      split at h
      · rename_i hh
        obtain rfl := Option.some.inj h
        exact S.sound _ _ _ (Option.some_get (hh s)).symm
      · cases h
  | sited A =>
    simp only [tsolve] at h
    split at h
    · rename_i hh
      obtain rfl := Option.some.inj h
      exact S.sound _ _ _ (Option.some_get (hh s)).symm
    · cases h

lemma tsolve_dense {m n w : ℕ} (S : LinSolver K) {A : Mat K m n} {B : Mat K m w}
    {X : T N (Mat K n w)} (h : tsolve S (.dense A) (.dense B) = some X) :
    ∃ X', X = .dense X' ∧ A * X' = B := by
  simp only [tsolve, Option.map_eq_some_iff] at h
  obtain ⟨Y, hY, rfl⟩ := h
  exact ⟨Y, rfl, S.sound _ _ _ hY⟩

lemma tsolve_sited {m n w : ℕ} (S : LinSolver K) {A : T N (Mat K m n)} {B : T N (Mat K m w)}
    {X : T N (Mat K n w)} (h : tsolve S A B = some X) :
    X.isSited = (A.isSited || B.isSited) := by
  cases A with
  | dense A =>
    cases B with
    | dense B =>
      obtain ⟨_, rfl, _⟩ := tsolve_dense S h
      rfl
    | sited B =>
      simp only [tsolve] at h
      split at h
      · obtain rfl := Option.some.inj h
        rfl
      · cases h
  | sited A =>
    simp only [tsolve] at h
    split at h
    · obtain rfl := Option.some.inj h
      cases B <;> rfl
    · cases h

lemma reorder_get {csz : Bool → ℕ} {w : ℕ} (up : Bool)
    (p : T N (Mat K (csz up) w) × T N (Mat K (csz !up) w)) :
    GSol.get (reorder (F := fun c => T N (Mat K (csz c) w)) up p) up = p.1 ∧
    GSol.get (reorder (F := fun c => T N (Mat K (csz c) w)) up p) (!up) = p.2 := by
  cases up <;> exact ⟨rfl, rfl⟩

lemma sum_up {M : Type*} [AddCommMonoid M] (f : Bool → M) (up : Bool) :
    ∑ c, f c = f up + f (!up) := by
  cases up <;> simp [Fintype.sum_bool, add_comm]

lemma dense_of {α : Type} {t : T N α} (h : t.isSited = false) : ∃ a, t = .dense a := by
  cases t with
  | dense a => exact ⟨a, rfl⟩
  | sited f => cases h

lemma sited_of {α : Type} {t : T N α} (h : t.isSited = true) : ∃ f, t = .sited f := by
  cases t with
  | dense a => cases h
  | sited f => exact ⟨f, rfl⟩

/-- Everything a successful call of `schurSolve` went through. -/
lemma schurSolve_some {P Q : LinSolver K} {rp up : Bool} {A : GMat K N} {nc : ℕ}
    {B : Fin nc → GRhs K N A.rsz} {X : (j : Fin nc) → GSol K N A.csz (B j).width}
    (h : schurSolve P Q rp up A B = some X) :
    ∃ Y, tsolve P (A.blk rp up) (A.blk rp !up) = some Y ∧
      ∀ j, ∃ Z Xs, tsolve P (A.blk rp up) ((B j).blk rp) = some Z ∧
        tsolve Q (T.map2 (· - ·) (A.blk (!rp) !up) (gmatmul (A.cblk up) (A.blk (!rp) up) Y))
          (T.map2 (· - ·) ((B j).blk !rp) (gmatmul (A.cblk up) (A.blk (!rp) up) Z)) = some Xs ∧
        (X j).get up = T.map2 (· - ·) Z (gmatmul (A.cblk !up) Y Xs) ∧ (X j).get (!up) = Xs := by
  unfold schurSolve at h
  split at h
  · cases h
  · simp only [Option.bind_eq_bind, Option.bind_eq_some_iff] at h
    obtain ⟨YS, hYS, h⟩ := h
    simp only [schurPrep, Option.bind_eq_bind, Option.bind_eq_some_iff, Option.pure_def,
      Option.some.injEq] at hYS
    obtain ⟨Y, hY, rfl⟩ := hYS
    refine ⟨Y, hY, fun j => ?_⟩
    split at h
    · rename_i hh
      simp only [Option.pure_def, Option.some.injEq] at h
      subst h
      obtain ⟨p, hj⟩ := Option.isSome_iff_exists.1 (hh j)
      have hg : (schurColumn P Q A rp up Y _ (B j)).get (hh j) = p := Option.get_of_eq_some _ hj
      obtain ⟨h1, h2⟩ := reorder_get (csz := A.csz) up p
      simp only [schurColumn, Option.bind_eq_bind, Option.bind_eq_some_iff, Option.pure_def,
        Option.some.injEq] at hj
      obtain ⟨Z, hZ, Xs, hXs, rfl⟩ := hj
      refine ⟨Z, Xs, hZ, hXs, ?_, ?_⟩
      · show GSol.get (csz := A.csz) (reorder (F := fun c => T N (Mat K (A.csz c) (B j).width)) up _) up = _
        rw [hg]; exact h1
      · show GSol.get (csz := A.csz)
          (reorder (F := fun c => T N (Mat K (A.csz c) (B j).width)) up _) (!up) = _
        rw [hg]; exact h2
    · cases h

lemma sum_diag {m n w : ℕ} (s : Fin N) (a : Mat K m n) (g : Fin N → Mat K n w) :
    ∑ t, (if s = t then a else 0) * g t = a * g s := by
  rw [Finset.sum_eq_single s]
  · rw [if_pos rfl]
  · intro b _ hb
    rw [if_neg (Ne.symm hb), Matrix.zero_mul]
  · intro h; exact absurd (Finset.mem_univ _) h

/-- The elimination identities, for a DENSE second group and a right-hand side without sites. -/
lemma schur_core {m n m' n' w : ℕ} {P Q : LinSolver K} (rb cb : Bool) (hb : rb = cb)
    {App : T N (Mat K m n)} {Aps : T N (Mat K m n')} {Asp : T N (Mat K m' n)}
    {Ass : T N (Mat K m' n')} {Bp : T N (Mat K m w)} {Bs : T N (Mat K m' w)}
    (rb2 cb2 wb : Bool) (h2 : rb2 = false) (h2' : cb2 = false) (hw : wb = false)
    (s1 : Shaped rb cb App) (s2 : Shaped rb cb2 Aps) (s3 : Shaped rb2 cb Asp)
    (s4 : Shaped rb2 cb2 Ass) (s5 : Shaped rb wb Bp) (s6 : Shaped rb2 wb Bs)
    {Y : T N (Mat K n n')} {Z : T N (Mat K n w)} {Xs : T N (Mat K n' w)}
    (hY : tsolve P App Aps = some Y) (hZ : tsolve P App Bp = some Z)
    (hX : tsolve Q (T.map2 (· - ·) Ass (gmatmul cb Asp Y))
      (T.map2 (· - ·) Bs (gmatmul cb Asp Z)) = some Xs) :
    (∀ (s : Site N rb) (s' : Site N wb),
      (∑ t : Site N cb, entry rb cb App s t *
        entry cb wb (T.map2 (· - ·) Z (gmatmul cb2 Y Xs)) t s') +
      (∑ t : Site N cb2, entry rb cb2 Aps s t * entry cb2 wb Xs t s')
      = entry rb wb Bp s s') ∧
    (∀ (s : Site N rb2) (s' : Site N wb),
      (∑ t : Site N cb, entry rb2 cb Asp s t *
        entry cb wb (T.map2 (· - ·) Z (gmatmul cb2 Y Xs)) t s') +
      (∑ t : Site N cb2, entry rb2 cb2 Ass s t * entry cb2 wb Xs t s')
      = entry rb2 wb Bs s s') := by
  subst hb h2 h2' hw
  cases rb with
  | false =>
    obtain ⟨App, rfl⟩ := dense_of s1
    obtain ⟨Aps, rfl⟩ := dense_of s2
    obtain ⟨Asp, rfl⟩ := dense_of s3
    obtain ⟨Ass, rfl⟩ := dense_of s4
    obtain ⟨Bp, rfl⟩ := dense_of s5
    obtain ⟨Bs, rfl⟩ := dense_of s6
    obtain ⟨Y, rfl, eY⟩ := tsolve_dense P hY
    obtain ⟨Z, rfl, eZ⟩ := tsolve_dense P hZ
    simp only [gmatmul, T.map2] at hX
    obtain ⟨Xs, rfl, eX⟩ := tsolve_dense Q hX
    constructor
    · intro s s'
      show (∑ t : Unit, App * (Z - Y * Xs)) + (∑ t : Unit, Aps * Xs) = Bp
      simp only [Finset.sum_const, Finset.card_univ, Fintype.card_unit, one_smul]
      rw [Matrix.mul_sub, eZ, ← Matrix.mul_assoc, eY]
      abel
    · intro s s'
      show (∑ t : Unit, Asp * (Z - Y * Xs)) + (∑ t : Unit, Ass * Xs) = Bs
      simp only [Finset.sum_const, Finset.card_univ, Fintype.card_unit, one_smul]
      have e : Ass * Xs - Asp * Y * Xs = Bs - Asp * Z := by
        rw [← Matrix.sub_mul]; exact eX
      have : Asp * (Z - Y * Xs) + Ass * Xs = Asp * Z + (Ass * Xs - Asp * Y * Xs) := by
        rw [Matrix.mul_sub, ← Matrix.mul_assoc]; abel
      rw [this, e]; abel
  | true =>
    obtain ⟨Asp, rfl⟩ := sited_of s3
    obtain ⟨Ass, rfl⟩ := dense_of s4
    obtain ⟨Bs, rfl⟩ := dense_of s6
    have zY := tsolve_sited P hY
    have zZ := tsolve_sited P hZ
    have s1' : App.isSited = true := s1
    rw [s1', Bool.true_or] at zY zZ
    have eY := tsolve_at P hY
    have eZ := tsolve_at P hZ
    obtain ⟨Y, rfl⟩ := sited_of zY
    obtain ⟨Z, rfl⟩ := sited_of zZ
    simp only [gmatmul, T.map2, T.sumSites, if_true] at hX
    obtain ⟨Xs, rfl, eX⟩ := tsolve_dense Q hX
    constructor
    · intro s s'
      change Fin N at s
      show (∑ t : Fin N, (if s = t then App.at s else 0) * (Z t - Y t * Xs)) +
        (∑ t : Unit, Aps.at s * Xs) = Bp.at s
      simp only [Finset.sum_const, Finset.card_univ, Fintype.card_unit, one_smul, sum_diag]
      have e1 : App.at s * Z s = Bp.at s := eZ s
      have e2 : App.at s * Y s = Aps.at s := eY s
      rw [Matrix.mul_sub, e1, ← Matrix.mul_assoc, e2]
      abel
    · intro s s'
      show (∑ t : Fin N, Asp t * (Z t - Y t * Xs)) + (∑ t : Unit, Ass * Xs) = Bs
      simp only [Finset.sum_const, Finset.card_univ, Fintype.card_unit, one_smul, Matrix.mul_sub,
        Finset.sum_sub_distrib]
      have e : Ass * Xs - (∑ t, Asp t * Y t) * Xs = Bs - ∑ t, Asp t * Z t := by
        rw [← Matrix.sub_mul]; exact eX
      have e' : ∑ t, Asp t * (Y t * Xs) = (∑ t, Asp t * Y t) * Xs := by
        rw [Matrix.sum_mul]
        exact Finset.sum_congr rfl fun t _ => (Matrix.mul_assoc _ _ _).symm
      rw [e']
      have : ∀ a b c : Mat K m' w, a - b + c = a + (c - b) := fun a b c => by abel
      rw [this, e]; abel

/-! ## C24: the full system is solved -/

/-- **C24.** Whatever sub-solvers are plugged in, if the Schur solver returns, its result solves the
full linear system, for each of the four choices of primary groups, any number of right-hand-side
column groups, and a primary group that is DENSE or BLOCK (one block per site).
The second group and the right-hand-side columns are DENSE; C71 and C72 are about the rest. -/
theorem C24_solves (P Q : LinSolver K) (rp up : Bool) (A : GMat K N) {nc : ℕ}
    (B : Fin nc → GRhs K N A.rsz) (X : (j : Fin nc) → GSol K N A.csz (B j).width)
    (hA : A.Shaped) (hB : ∀ j, (B j).Shaped (rblk := A.rblk))
    (hp : A.rblk rp = A.cblk up) (hs : A.rblk (!rp) = false) (hs' : A.cblk (!up) = false)
    (hw : ∀ j, (B j).cblk = false)
    (h : schurSolve P Q rp up A B = some X) :
    ∀ j, Solves A (B j) (X j).get := by
  obtain ⟨Y, hY, hj⟩ := schurSolve_some h
  intro j
  obtain ⟨Z, Xs, hZ, hXs, e1, e2⟩ := hj j
  obtain ⟨c1, c2⟩ := schur_core (A.rblk rp) (A.cblk up) hp (A.rblk !rp) (A.cblk !up) (B j).cblk
    hs hs' (hw j) (hA rp up) (hA rp _) (hA _ up) (hA _ _) (hB j rp) (hB j _) hY hZ hXs
  intro r s s'
  rw [sum_up _ up, e1, e2]
  rcases (by cases r <;> cases rp <;> simp : r = rp ∨ r = !rp) with rfl | rfl
  · exact c1 s s'
  · exact c2 s s'

/-! ### When it returns -/

lemma tsolve_isSome {m n w : ℕ} {S : LinSolver K} (hS : S.Complete) {A : T N (Mat K m n)}
    (B : T N (Mat K m w))
    (hA : ∀ a, (A = .dense a ∨ ∃ s, A.at s = a) → ∃ L : Mat K n m, L * a = 1 ∧ a * L = 1) :
    ∃ X, tsolve S A B = some X := by
  cases A with
  | dense A =>
    cases B with
    | dense B =>
      obtain ⟨X, hX⟩ := Option.isSome_iff_exists.1 (hS A B (hA A (Or.inl rfl)))
      exact ⟨.dense X, by simp [tsolve, hX]⟩
    | sited B =>
      have : ∀ s, (S.run A (B s)).isSome := fun s => hS A (B s) (hA A (Or.inl rfl))
      exact ⟨_, by simp only [tsolve]; exact dif_pos this⟩
  | sited A =>
    have : ∀ s, (S.run (A s) (B.at s)).isSome := fun s => hS (A s) _ (hA _ (Or.inr ⟨s, rfl⟩))
    exact ⟨_, by simp only [tsolve]; exact dif_pos this⟩

/-- The solver returns when the primary block and the computed Schur complement are invertible. -/
lemma returns_of {P Q : LinSolver K} (hP : P.Complete) (hQ : Q.Complete) {rp up : Bool}
    {A : GMat K N} {nc : ℕ} (B : Fin nc → GRhs K N A.rsz) (hsq : A.rsz rp = A.csz up)
    (hinv : ∀ a, (A.blk rp up = .dense a ∨ ∃ s, (A.blk rp up).at s = a) →
      ∃ L : Mat K (A.csz up) (A.rsz rp), L * a = 1 ∧ a * L = 1)
    (hS : ∀ Y, tsolve P (A.blk rp up) (A.blk rp !up) = some Y →
      ∀ a, (T.map2 (· - ·) (A.blk (!rp) !up) (gmatmul (A.cblk up) (A.blk (!rp) up) Y) = .dense a ∨
        ∃ s, (T.map2 (· - ·) (A.blk (!rp) !up)
          (gmatmul (A.cblk up) (A.blk (!rp) up) Y)).at s = a) →
      ∃ L : Mat K (A.csz !up) (A.rsz !rp), L * a = 1 ∧ a * L = 1) :
    ∃ X, schurSolve P Q rp up A B = some X := by
  obtain ⟨Y, hY⟩ := tsolve_isSome hP (A.blk rp !up) hinv
  have col : ∀ j, (schurColumn P Q A rp up Y (T.map2 (· - ·) (A.blk (!rp) !up)
      (gmatmul (A.cblk up) (A.blk (!rp) up) Y)) (B j)).isSome := by
    intro j
    obtain ⟨Z, hZ⟩ := tsolve_isSome hP ((B j).blk rp) hinv
    obtain ⟨Xs, hXs⟩ := tsolve_isSome hQ
      (T.map2 (· - ·) ((B j).blk !rp) (gmatmul (A.cblk up) (A.blk (!rp) up) Z)) (hS Y hY)
    simp [schurColumn, hZ, hXs]
  rw [← Option.isSome_iff_exists]
  unfold schurSolve
  rw [if_neg (not_not.2 hsq)]
  simp only [schurPrep, hY, Option.bind_eq_bind, Option.bind_some, Option.pure_def]
  rw [dif_pos col]
  rfl

/-- A square matrix without kernel is invertible. -/
lemma invertible_of_ker {m n : ℕ} (hmn : m = n) (A : Mat K m n)
    (hk : ∀ x : Mat K n 1, A * x = 0 → x = 0) : ∃ L : Mat K n m, L * A = 1 ∧ A * L = 1 := by
  subst hmn
  have hd : IsUnit A.det := by
    rw [isUnit_iff_ne_zero]
    intro h0
    obtain ⟨v, hv, hv'⟩ := Matrix.exists_mulVec_eq_zero_iff.2 h0
    apply hv
    have := hk (Matrix.of fun i _ => v i) (by
      ext i j
      have := congrFun hv' i
      simpa [Matrix.mul_apply, Matrix.mulVec, dotProduct] using this)
    funext i
    exact congrFun (congrFun this i) 0
  exact ⟨A⁻¹, Matrix.nonsing_inv_mul A hd, Matrix.mul_nonsing_inv A hd⟩

/-- The homogeneous right-hand side of width one. -/
def zeroRhs (A : GMat K N) : GRhs K N A.rsz where
  width := 1
  cblk := false
  blk r := if A.rblk r then .sited fun _ => 0 else .dense 0

/-- A width-one unknown has the storage shape of the column groups of `A`. -/
def ShapedSol (A : GMat K N) (X : (c : Bool) → T N (Mat K (A.csz c) 1)) : Prop :=
  ∀ c, Shaped (A.cblk c) false (X c)

/-- The full matrix has no kernel: the only solution of the homogeneous system is zero. -/
def NoKernel (A : GMat K N) : Prop :=
  ∀ X : (c : Bool) → T N (Mat K (A.csz c) 1), ShapedSol A X → Solves A (zeroRhs A) X →
    ∀ c (s : Site N (A.cblk c)), entry (A.cblk c) false (X c) s () = 0

/-- For a single site-less or sited primary block, the Schur complement inherits injectivity. -/
lemma schur_ker {m n m' n' : ℕ} {P : LinSolver K} (cb : Bool)
    {App : T N (Mat K m n)} {Aps : T N (Mat K m n')} {Asp : T N (Mat K m' n)}
    {Ass : Mat K m' n'} (s1 : Shaped cb cb App) (s3 : Shaped false cb Asp)
    (s2 : Shaped cb false Aps)
    {Y : T N (Mat K n n')} (hY : tsolve P App Aps = some Y) {S : Mat K m' n'}
    (hS : T.map2 (· - ·) (.dense Ass) (gmatmul cb Asp Y) = .dense S)
    (x : Mat K n' 1) (hx : S * x = 0) :
    (∀ (s : Site N cb),
      (∑ t : Site N cb, entry cb cb App s t *
        entry cb false (T.map2 (· * ·) Y (.dense (-x))) t ()) +
      (∑ t : Site N false, entry cb false Aps s t *
        entry false false (.dense x : T N (Mat K n' 1)) t ()) = 0) ∧
    (∀ (s : Site N false),
      (∑ t : Site N cb, entry false cb Asp s t *
        entry cb false (T.map2 (· * ·) Y (.dense (-x))) t ()) +
      (∑ t : Site N false, entry false false (.dense Ass : T N (Mat K m' n')) s t *
        entry false false (.dense x : T N (Mat K n' 1)) t ()) = 0) := by
  cases cb with
  | false =>
    obtain ⟨App, rfl⟩ := dense_of s1
    obtain ⟨Aps, rfl⟩ := dense_of s2
    obtain ⟨Asp, rfl⟩ := dense_of s3
    obtain ⟨Y, rfl, eY⟩ := tsolve_dense P hY
    have hS' : Ass - Asp * Y = S := by
      simpa [gmatmul, T.map2] using hS
    constructor
    · intro s
      show (∑ t : Unit, App * (Y * -x)) + (∑ t : Unit, Aps * x) = 0
      simp only [Finset.sum_const, Finset.card_univ, Fintype.card_unit, one_smul]
      rw [← Matrix.mul_assoc, eY, Matrix.mul_neg, neg_add_cancel]
    · intro s
      show (∑ t : Unit, Asp * (Y * -x)) + (∑ t : Unit, Ass * x) = 0
      simp only [Finset.sum_const, Finset.card_univ, Fintype.card_unit, one_smul]
      rw [← hS', Matrix.sub_mul] at hx
      rw [← Matrix.mul_assoc, Matrix.mul_neg, neg_add_eq_sub, hx]
  | true =>
    obtain ⟨Asp, rfl⟩ := sited_of s3
    have zY := tsolve_sited P hY
    have s1' : App.isSited = true := s1
    rw [s1', Bool.true_or] at zY
    have eY := tsolve_at P hY
    obtain ⟨Y, rfl⟩ := sited_of zY
    have hS' : Ass - ∑ t, Asp t * Y t = S := by
      simpa [gmatmul, T.map2, T.sumSites] using hS
    constructor
    · intro s
      change Fin N at s
      show (∑ t : Fin N, (if s = t then App.at s else 0) * (Y t * -x)) +
        (∑ t : Unit, Aps.at s * x) = 0
      simp only [Finset.sum_const, Finset.card_univ, Fintype.card_unit, one_smul, sum_diag]
      have e2 : App.at s * Y s = Aps.at s := eY s
      rw [← Matrix.mul_assoc, e2, Matrix.mul_neg, neg_add_cancel]
    · intro s
      show (∑ t : Fin N, Asp t * (Y t * -x)) + (∑ t : Unit, Ass * x) = 0
      simp only [Finset.sum_const, Finset.card_univ, Fintype.card_unit, one_smul]
      rw [← hS', Matrix.sub_mul, Matrix.sum_mul] at hx
      rw [← hx, sub_eq_add_neg, add_comm, ← Finset.sum_neg_distrib]
      congr 1
      exact Finset.sum_congr rfl fun t _ => by rw [Matrix.mul_neg, Matrix.mul_neg, Matrix.mul_assoc]

/-- The two halves of a width-one unknown in column-group order. -/
def pairUp {F : Bool → Type} : (up : Bool) → F up → F (!up) → (c : Bool) → F c
  | false, a, _, false => a
  | false, _, b, true => b
  | true, _, b, false => b
  | true, a, _, true => a

lemma pairUp_up {F : Bool → Type} (up : Bool) (a : F up) (b : F (!up)) :
    pairUp up a b up = a ∧ pairUp up a b (!up) = b := by
  cases up <;> exact ⟨rfl, rfl⟩

/-- **C24, completeness.** With sub-solvers that solve every invertible system, the Schur solver
returns for every right-hand side as soon as the primary block is invertible (at every site) and
the full matrix is square and has no kernel: no further condition on the Schur complement is
needed. -/
theorem C24_returns (P Q : LinSolver K) (hP : P.Complete) (hQ : Q.Complete) (rp up : Bool)
    (A : GMat K N) {nc : ℕ} (B : Fin nc → GRhs K N A.rsz)
    (hA : A.Shaped)
    (hp : A.rblk rp = A.cblk up) (hs : A.rblk (!rp) = false) (hs' : A.cblk (!up) = false)
    (hsq : A.rsz rp = A.csz up) (hsq' : A.rsz (!rp) = A.csz (!up))
    (hinv : ∀ a, (A.blk rp up = .dense a ∨ ∃ s, (A.blk rp up).at s = a) →
      ∃ L : Mat K (A.csz up) (A.rsz rp), L * a = 1 ∧ a * L = 1)
    (hker : NoKernel A) :
    ∃ X, schurSolve P Q rp up A B = some X := by
  obtain ⟨Y, hY⟩ := tsolve_isSome hP (A.blk rp !up) hinv
  have hss : (A.blk (!rp) !up).isSited = false := by
    have := hA (!rp) (!up); rw [hs, hs'] at this; exact this
  obtain ⟨Ass, hAss⟩ := dense_of hss
  have yS : Y.isSited = A.cblk up := by
    have h1 := tsolve_sited P hY
    have h2 : (A.blk rp up).isSited = _ := hA rp up
    have h3 : (A.blk rp !up).isSited = _ := hA rp (!up)
    rw [h1, h2, h3, hp, hs']; cases A.cblk up <;> rfl
  have gdense : ∀ {w : ℕ} (V : T N (Mat K (A.csz up) w)), V.isSited = A.cblk up →
      (gmatmul (A.cblk up) (A.blk (!rp) up) V).isSited = false := by
    intro w V hV
    have h2 : (A.blk (!rp) up).isSited = _ := hA (!rp) up
    rw [hs, Bool.false_or] at h2
    simp only [gmatmul]
    cases hc : A.cblk up with
    | false =>
      simp only [Bool.false_eq_true, if_false]
      rw [isSited_map2, h2, hV, hc]; rfl
    | true =>
      simp only [if_true]
      cases T.map2 (· * ·) (A.blk (!rp) up) V <;> rfl
  have hSd : (T.map2 (· - ·) (A.blk (!rp) !up)
      (gmatmul (A.cblk up) (A.blk (!rp) up) Y)).isSited = false := by
    rw [isSited_map2, hss, gdense Y yS]; rfl
  obtain ⟨S, hS⟩ := dense_of hSd
  have kerS : ∀ x : Mat K (A.csz !up) 1, S * x = 0 → x = 0 := by
    intro x hx
    have hcore := schur_ker (P := P) (A.cblk up) (App := A.blk rp up) (Aps := A.blk rp !up)
      (Asp := A.blk (!rp) up) (Ass := Ass)
      (by have := hA rp up; rwa [hp] at this) (by have := hA (!rp) up; rwa [hs] at this)
      (by have := hA rp (!up); rwa [hp, hs'] at this) hY (S := S) (by rw [← hAss]; exact hS) x hx
    obtain ⟨k1, k2⟩ := hcore
    let X : (c : Bool) → T N (Mat K (A.csz c) 1) :=
      pairUp (F := fun c => T N (Mat K (A.csz c) 1)) up (T.map2 (· * ·) Y (.dense (-x))) (.dense x)
    obtain ⟨x1, x2⟩ := pairUp_up (F := fun c => T N (Mat K (A.csz c) 1)) up
      (T.map2 (· * ·) Y (.dense (-x))) (.dense x)
    have hXsh : ShapedSol A X := by
      intro c
      rcases (by cases c <;> cases up <;> simp : c = up ∨ c = !up) with rfl | rfl
      · show (X c).isSited = _
        rw [show X c = _ from x1, isSited_map2, yS]
        rfl
      · show (X !up).isSited = _
        rw [show X (!up) = _ from x2, hs']; rfl
    have hz : ∀ (rb : Bool) (m : ℕ) (s : Site N rb),
        entry rb false (if rb then .sited fun _ => 0 else .dense 0 : T N (Mat K m 1)) s () = 0 := by
      intro rb m s; cases rb <;> rfl
    have hsol : Solves A (zeroRhs A) X := by
      intro r s s'
      rw [sum_up _ up, show X up = _ from x1, show X (!up) = _ from x2]
      rw [show entry (A.rblk r) (zeroRhs A).cblk ((zeroRhs A).blk r) s s' = 0 from hz _ _ s]
      have aux : ∀ (c2 : Bool) (h : c2 = false) {m : ℕ} (rb : Bool) (M : T N (Mat K m (A.csz !up)))
          (s : Site N rb), (∑ t : Site N c2, entry rb c2 M s t *
            entry c2 false (.dense x : T N (Mat K (A.csz !up) 1)) t ()) =
          ∑ t : Site N false, entry rb false M s t *
            entry false false (.dense x : T N (Mat K (A.csz !up) 1)) t () := by
        intro c2 h; subst h; intros; rfl
      rcases (by cases r <;> cases rp <;> simp : r = rp ∨ r = !rp) with rfl | rfl
      · have k1' : ∀ rb (h : rb = A.cblk up) (s : Site N rb),
            (∑ t : Site N (A.cblk up), entry rb (A.cblk up) (A.blk r up) s t *
              entry (A.cblk up) false (T.map2 (· * ·) Y (.dense (-x))) t ()) +
            (∑ t : Site N false, entry rb false (A.blk r !up) s t *
              entry false false (.dense x : T N (Mat K (A.csz !up) 1)) t ()) = 0 := by
          intro rb h; subst h; exact k1
        refine Eq.trans ?_ (k1' _ hp s)
        exact congrArg _ (aux _ hs' _ _ _)
      · have k2' : ∀ rb (h : rb = false) (s : Site N rb),
            (∑ t : Site N (A.cblk up), entry rb (A.cblk up) (A.blk (!rp) up) s t *
              entry (A.cblk up) false (T.map2 (· * ·) Y (.dense (-x))) t ()) +
            (∑ t : Site N false, entry rb false (A.blk (!rp) !up) s t *
              entry false false (.dense x : T N (Mat K (A.csz !up) 1)) t ()) = 0 := by
          intro rb h; subst h; rw [hAss]; exact k2
        refine Eq.trans ?_ (k2' _ hs s)
        exact congrArg _ (aux _ hs' _ _ _)
    have key : ∀ c2 (h : c2 = false),
        (∀ s : Site N c2, entry c2 false (.dense x : T N (Mat K (A.csz !up) 1)) s () = 0) →
        x = 0 := by
      intro c2 h; subst h; intro h; exact h ()
    refine key _ hs' fun s => ?_
    have := hker X hXsh hsol (!up) s
    rwa [show X (!up) = _ from x2] at this
  have invS := invertible_of_ker hsq' S kerS
  refine returns_of hP hQ B hsq hinv fun Y' hY' a ha => ?_
  rw [hY] at hY'
  obtain rfl := Option.some.inj hY'
  rw [hS] at ha
  rcases ha with h | ⟨s, h⟩
  · cases h; exact invS
  · change S = a at h; subst h; exact invS

/-! ## C70: per-instance products -/

lemma entry_perInstance_aux {m n w : ℕ} (rb cb : Bool) (M : T N (Mat K m n)) (X : T N (Mat K n w))
    (hM : Shaped rb cb M) (hX : Shaped cb false X) :
    (let r := T.map2 (· * ·) M X; if !rb && r.isSited then r.sumSites else r).isSited = rb ∧
    ∀ s : Site N rb,
      entry rb false (let r := T.map2 (· * ·) M X; if !rb && r.isSited then r.sumSites else r) s ()
      = ∑ t : Site N cb, entry rb cb M s t * entry cb false X t () := by
  cases rb <;> cases cb
  · obtain ⟨M, rfl⟩ := dense_of hM
    obtain ⟨X, rfl⟩ := dense_of hX
    refine ⟨rfl, fun s => ?_⟩
    show M * X = ∑ t : Unit, M * X
    simp
  · obtain ⟨M, rfl⟩ := sited_of hM
    obtain ⟨X, rfl⟩ := sited_of hX
    exact ⟨rfl, fun s => rfl⟩
  · obtain ⟨M, rfl⟩ := sited_of hM
    obtain ⟨X, rfl⟩ := dense_of hX
    refine ⟨rfl, fun s => ?_⟩
    change Fin N at s
    show M s * X = ∑ t : Unit, M s * X
    simp
  · obtain ⟨M, rfl⟩ := sited_of hM
    obtain ⟨X, rfl⟩ := sited_of hX
    refine ⟨rfl, fun s => ?_⟩
    change Fin N at s
    exact (sum_diag s (M s) X).symm

lemma entry_add {m w : ℕ} (rb : Bool) (a b : T N (Mat K m w)) (ha : a.isSited = rb)
    (hb : b.isSited = rb) (s : Site N rb) :
    entry rb false (T.map2 (· + ·) a b) s () = entry rb false a s () + entry rb false b s () := by
  cases rb
  · obtain ⟨a, rfl⟩ := dense_of ha
    obtain ⟨b, rfl⟩ := dense_of hb
    rfl
  · exact T.at_map2 _ _ _ _

/-- **C70.** `per_instance_matvec` is the product with the full matrix, for every structure of the
groups and every number of sites. -/
theorem C70_matvec {w : ℕ} (A : GMat K N) (X : (c : Bool) → T N (Mat K (A.csz c) w))
    (hA : A.Shaped) (hX : ∀ c, Shaped (A.cblk c) false (X c)) (r : Bool) (s : Site N (A.rblk r)) :
    entry (A.rblk r) false (perInstance A X r) s () =
      ∑ c : Bool, ∑ t : Site N (A.cblk c),
        entry (A.rblk r) (A.cblk c) (A.blk r c) s t * entry (A.cblk c) false (X c) t () := by
  obtain ⟨h0, e0⟩ := entry_perInstance_aux _ _ _ _ (hA r false) (hX false)
  obtain ⟨h1, e1⟩ := entry_perInstance_aux _ _ _ _ (hA r true) (hX true)
  rw [sum_up _ false, ← e0 s]
  refine Eq.trans (entry_add (A.rblk r) _ _ h0 h1 s) ?_
  exact congrArg _ (e1 s)

/-- The result has the storage shape of the row group. -/
theorem C70_matvec_shape {w : ℕ} (A : GMat K N) (X : (c : Bool) → T N (Mat K (A.csz c) w))
    (hA : A.Shaped) (hX : ∀ c, Shaped (A.cblk c) false (X c)) (r : Bool) :
    Shaped (A.rblk r) false (perInstance A X r) := by
  obtain ⟨h0, _⟩ := entry_perInstance_aux _ _ _ _ (hA r false) (hX false)
  obtain ⟨h1, _⟩ := entry_perInstance_aux _ _ _ _ (hA r true) (hX true)
  refine Eq.trans (isSited_map2 _ _ _) ?_
  rw [h0, h1]; simp

/-- Inner product of two width-one group vectors over all copies of all groups. -/
def inner2 {sz : Bool → ℕ} (b : Bool → Bool) (x y : (c : Bool) → T N (Mat K (sz c) 1)) : K :=
  ∑ c : Bool, ∑ s : Site N (b c), ∑ i : Fin (sz c),
    entry (b c) false (x c) s () i 0 * entry (b c) false (y c) s () i 0

lemma entry_transpose {m n : ℕ} (rb cb : Bool) (M : T N (Mat K m n)) (s : Site N rb)
    (t : Site N cb) :
    entry cb rb (M.map Matrix.transpose) t s = (entry rb cb M s t).transpose := by
  cases rb <;> cases cb <;> cases M <;> try rfl
  all_goals
    by_cases h : s = t
    · subst h
      simp [entry]
      rfl
    · have h' : ¬ t = s := Ne.symm h
      simp [entry, h, h']

lemma transpose_shaped {A : GMat K N} (hA : A.Shaped) : A.transpose.Shaped := by
  intro r c
  have h := hA c r
  have e : (A.transpose.blk r c).isSited = (A.blk c r).isSited := by
    show T.isSited ((A.blk c r).map Matrix.transpose) = _
    cases A.blk c r <;> rfl
  show (A.transpose.blk r c).isSited = (A.cblk r || A.rblk c)
  rw [e, h, Bool.or_comm]

/-- **C70, adjoint.** The transposed per-instance product is the adjoint of the direct one:
`⟨y, A x⟩ = ⟨Aᵀ y, x⟩` for every `x` and `y`, as adjoint sensitivity sweeps need. -/
theorem C70_adjoint (A : GMat K N) (hA : A.Shaped)
    (x : (c : Bool) → T N (Mat K (A.csz c) 1)) (hx : ∀ c, Shaped (A.cblk c) false (x c))
    (y : (r : Bool) → T N (Mat K (A.rsz r) 1)) (hy : ∀ r, Shaped (A.rblk r) false (y r)) :
    inner2 A.rblk y (perInstance A x) = inner2 A.cblk (perInstance A.transpose y) x := by
  unfold inner2
  have e1 : ∀ r (s : Site N (A.rblk r)) (i : Fin (A.rsz r)),
      entry (A.rblk r) false (perInstance A x r) s () i 0 =
      ∑ c : Bool, ∑ t : Site N (A.cblk c), ∑ k,
        entry (A.rblk r) (A.cblk c) (A.blk r c) s t i k * entry (A.cblk c) false (x c) t () k 0 := by
    intro r s i
    rw [C70_matvec A x hA hx r s]
    simp only [Matrix.sum_apply, Matrix.mul_apply]
  have e2 : ∀ c (t : Site N (A.cblk c)) (k : Fin (A.csz c)),
      entry (A.cblk c) false (perInstance A.transpose y c) t () k 0 =
      ∑ r : Bool, ∑ s : Site N (A.rblk r), ∑ i,
        entry (A.rblk r) (A.cblk c) (A.blk r c) s t i k * entry (A.rblk r) false (y r) s () i 0 := by
    intro c t k
    have h := C70_matvec A.transpose y (transpose_shaped hA) hy c t
    refine Eq.trans (congrFun (congrFun h k) 0) ?_
    refine Eq.trans (Matrix.sum_apply _ _ _ _) (Finset.sum_congr rfl fun r _ => ?_)
    refine Eq.trans (Matrix.sum_apply _ _ _ _) (Finset.sum_congr rfl fun s _ => ?_)
    refine Eq.trans Matrix.mul_apply (Finset.sum_congr rfl fun i _ => ?_)
    have := congrFun (congrFun (entry_transpose (A.rblk r) (A.cblk c) (A.blk r c) s t) k) i
    exact congrArg (· * _) this
  simp only [e1, Finset.mul_sum]
  -- both sides are the same finite sum, in different orders
  have swap : ∀ r (s : Site N (A.rblk r)),
      (∑ i, ∑ c : Bool, ∑ t : Site N (A.cblk c), ∑ k, entry (A.rblk r) false (y r) s () i 0 *
        (entry (A.rblk r) (A.cblk c) (A.blk r c) s t i k * entry (A.cblk c) false (x c) t () k 0)) =
      ∑ c : Bool, ∑ t : Site N (A.cblk c), ∑ k, ∑ i, entry (A.rblk r) (A.cblk c) (A.blk r c) s t i k *
        entry (A.rblk r) false (y r) s () i 0 * entry (A.cblk c) false (x c) t () k 0 := by
    intro r s
    rw [Finset.sum_comm]
    refine Finset.sum_congr rfl fun c _ => ?_
    rw [Finset.sum_comm]
    refine Finset.sum_congr rfl fun t _ => ?_
    rw [Finset.sum_comm]
    refine Finset.sum_congr rfl fun k _ => Finset.sum_congr rfl fun i _ => ?_
    ring
  simp only [swap]
  have push : ∀ r, (∑ s : Site N (A.rblk r), ∑ c : Bool, ∑ t : Site N (A.cblk c), ∑ k, ∑ i,
      entry (A.rblk r) (A.cblk c) (A.blk r c) s t i k *
        entry (A.rblk r) false (y r) s () i 0 * entry (A.cblk c) false (x c) t () k 0) =
      ∑ c : Bool, ∑ t : Site N (A.cblk c), ∑ k, ∑ s : Site N (A.rblk r), ∑ i,
      entry (A.rblk r) (A.cblk c) (A.blk r c) s t i k *
        entry (A.rblk r) false (y r) s () i 0 * entry (A.cblk c) false (x c) t () k 0 := by
    intro r
    rw [Finset.sum_comm]
    refine Finset.sum_congr rfl fun c _ => ?_
    rw [Finset.sum_comm]
    refine Finset.sum_congr rfl fun t _ => ?_
    rw [Finset.sum_comm]
  simp only [push]
  rw [Finset.sum_comm]
  refine Finset.sum_congr rfl fun c _ => ?_
  rw [Finset.sum_comm]
  refine Finset.sum_congr rfl fun t _ => ?_
  rw [Finset.sum_comm]
  refine Finset.sum_congr rfl fun k _ => ?_
  rw [e2, Finset.sum_mul]
  refine Finset.sum_congr rfl fun r _ => ?_
  rw [Finset.sum_mul]
  refine Finset.sum_congr rfl fun s _ => ?_
  rw [Finset.sum_mul]
  rfl

lemma ext_entry {m w : ℕ} (rb : Bool) {a b : T N (Mat K m w)} (ha : Shaped rb false a)
    (hb : Shaped rb false b) (h : ∀ s : Site N rb, entry rb false a s () = entry rb false b s ()) :
    a = b := by
  cases rb
  · obtain ⟨a, rfl⟩ := dense_of ha
    obtain ⟨b, rfl⟩ := dense_of hb
    exact congrArg _ (h ())
  · obtain ⟨a, rfl⟩ := sited_of ha
    obtain ⟨b, rfl⟩ := sited_of hb
    exact congrArg _ (funext h)

/-- **C70, mutual inverse.** Applying `per_instance_matvec` to the Schur solution gives back the
right-hand side, tensor for tensor. -/
theorem C70_inverse (P Q : LinSolver K) (rp up : Bool) (A : GMat K N) {nc : ℕ}
    (B : Fin nc → GRhs K N A.rsz) (X : (j : Fin nc) → GSol K N A.csz (B j).width)
    (hA : A.Shaped) (hB : ∀ j, (B j).Shaped (rblk := A.rblk))
    (hp : A.rblk rp = A.cblk up) (hs : A.rblk (!rp) = false) (hs' : A.cblk (!up) = false)
    (hw : ∀ j, (B j).cblk = false)
    (h : schurSolve P Q rp up A B = some X) (j : Fin nc) (r : Bool) :
    perInstance A (X j).get r = (B j).blk r := by
  have hX : ∀ c, Shaped (A.cblk c) false ((X j).get c) := by
    obtain ⟨Y, hY, hj⟩ := schurSolve_some h
    obtain ⟨Z, Xs, hZ, hXs, e1, e2⟩ := hj j
    have zY := tsolve_sited P hY
    have zZ := tsolve_sited P hZ
    have zX := tsolve_sited Q hXs
    have a1 : (A.blk rp up).isSited = _ := hA rp up
    have a2 : (A.blk rp !up).isSited = _ := hA rp (!up)
    have a3 : (A.blk (!rp) up).isSited = _ := hA (!rp) up
    have a4 : (A.blk (!rp) !up).isSited = _ := hA (!rp) (!up)
    have b1 : ((B j).blk rp).isSited = _ := hB j rp
    have b2 : ((B j).blk !rp).isSited = _ := hB j (!rp)
    rw [hs, hs'] at a4
    rw [hs, Bool.false_or] at a3
    rw [hs, hw j] at b2
    rw [hp, hw j] at b1
    rw [hp, hs'] at a2
    rw [hp] at a1
    have zY' : Y.isSited = A.cblk up := by rw [zY, a1, a2]; cases A.cblk up <;> rfl
    have zZ' : Z.isSited = A.cblk up := by rw [zZ, a1, b1]; cases A.cblk up <;> rfl
    have gd : ∀ {w : ℕ} (V : T N (Mat K (A.csz up) w)), V.isSited = A.cblk up →
        (gmatmul (A.cblk up) (A.blk (!rp) up) V).isSited = false := by
      intro w V hV
      simp only [gmatmul]
      cases hc : A.cblk up with
      | false =>
        simp only [Bool.false_eq_true, if_false]
        rw [isSited_map2, a3, hV, hc]; rfl
      | true =>
        simp only [if_true]
        cases T.map2 (· * ·) (A.blk (!rp) up) V <;> rfl
    have zX' : Xs.isSited = false := by
      rw [zX, isSited_map2, isSited_map2, a4, b2, gd Y zY', gd Z zZ']; rfl
    intro c
    rcases (by cases c <;> cases up <;> simp : c = up ∨ c = !up) with rfl | rfl
    · show ((X j).get c).isSited = (A.cblk c || false)
      rw [e1, isSited_map2, zZ', hs']
      simp only [gmatmul, Bool.false_eq_true, if_false]
      rw [isSited_map2, zY', zX']
      cases A.cblk c <;> rfl
    · show ((X j).get (!up)).isSited = (A.cblk (!up) || false)
      rw [e2, zX', hs']; rfl
  have hsol := C24_solves P Q rp up A B X hA hB hp hs hs' hw h j
  refine ext_entry (A.rblk r) (C70_matvec_shape A _ hA hX r) ?_ fun s => ?_
  · have := hB j r; rwa [hw j] at this
  · rw [C70_matvec A _ hA hX r s]
    have key : ∀ wb (hw : wb = false) (blk : T N (Mat K (A.rsz r) (B j).width))
        (X : (c : Bool) → T N (Mat K (A.csz c) (B j).width)),
        (∀ s' : Site N wb, ∑ c : Bool, ∑ t : Site N (A.cblk c),
          entry (A.rblk r) (A.cblk c) (A.blk r c) s t * entry (A.cblk c) wb (X c) t s'
          = entry (A.rblk r) wb blk s s') →
        ∑ c : Bool, ∑ t : Site N (A.cblk c),
          entry (A.rblk r) (A.cblk c) (A.blk r c) s t * entry (A.cblk c) false (X c) t ()
          = entry (A.rblk r) false blk s () := by
      intro wb hw; subst hw; intro blk X h; exact h ()
    exact key _ (hw j) _ _ (fun s' => hsol r s s')

/-! ## A solver meeting both contracts -/

open Classical in
/-- Solve exactly the systems with an invertible matrix. -/
noncomputable def exactSolver (K : Type) [Field K] : LinSolver K where
  run {m n w} A B :=
    if h : ∃ L : Mat K n m, L * A = 1 ∧ A * L = 1 then some (h.choose * B) else none
  sound {m n w} A B X h := by
    split at h
    · rename_i hh
      obtain rfl := Option.some.inj h
      rw [← Matrix.mul_assoc, hh.choose_spec.2, Matrix.one_mul]
    · cases h

open Classical in
lemma exactSolver_complete (K : Type) [Field K] : (exactSolver K).Complete := by
  intro m n w A B h
  show (if h : ∃ L : Mat K n m, L * A = 1 ∧ A * L = 1 then some (h.choose * B) else none).isSome
  rw [dif_pos h]; rfl

/-- The `1 × 1` matrix with entry `a`. -/
def m1 (a : ℚ) : Mat ℚ 1 1 := fun _ _ => a

lemma m1_mul (a b : ℚ) : m1 a * m1 b = m1 (a * b) := by
  ext i j; simp [m1, Matrix.mul_apply]

lemma m1_inv {a : ℚ} (h : a ≠ 0) : ∃ L : Mat ℚ 1 1, L * m1 a = 1 ∧ m1 a * L = 1 := by
  refine ⟨m1 a⁻¹, ?_, ?_⟩ <;> rw [m1_mul] <;> ext i j <;>
    simp [m1, h, Matrix.one_apply, Subsingleton.elim i j]

lemma m1_eta (M : Mat ℚ 1 1) : M = m1 (M 0 0) := by
  ext i j; rw [Subsingleton.elim i 0, Subsingleton.elim j 0]; rfl

lemma m1_inj {a b : ℚ} : m1 a = m1 b ↔ a = b :=
  ⟨fun h => congrFun (congrFun h 0) 0, fun h => by rw [h]⟩

lemma m1_sub (a b : ℚ) : m1 a - m1 b = m1 (a - b) := rfl
lemma m1_add (a b : ℚ) : m1 a + m1 b = m1 (a + b) := rfl
lemma m1_zero : (0 : Mat ℚ 1 1) = m1 0 := rfl

/-! ### Non-vacuity of C24 and C70: a two-site BLOCK primary group and a DENSE second group -/

/-- Sites `a`, `b`: `x_a + y = …`, `2 x_b + y = …`, `x_a + x_b + 4 y = …`. -/
def exA : GMat ℚ 2 where
  rsz _ := 1
  csz _ := 1
  rblk r := !r
  cblk c := !c
  blk r c := match r, c with
    | false, false => .sited fun s => if s = 0 then m1 1 else m1 2
    | false, true => .sited fun _ => m1 1
    | true, false => .sited fun _ => m1 1
    | true, true => .dense (m1 4)

/-- Right-hand side `x_a + y = 1`, `2 x_b + y = 2`, `x_a + x_b + 4 y = 3`. -/
def exB : GRhs ℚ 2 exA.rsz where
  width := 1
  cblk := false
  blk r := match r with
    | false => .sited fun s => if s = 0 then m1 1 else m1 2
    | true => .dense (m1 3)

lemma exA_shaped : exA.Shaped := by
  intro r c; cases r <;> cases c <;> rfl

example : ∃ X, schurSolve (exactSolver ℚ) (exactSolver ℚ) false false exA (fun _ : Fin 1 => exB)
      = some X ∧ Solves exA exB (X 0).get ∧
      ∀ r, perInstance exA (X 0).get r = exB.blk r := by
  have hB : ∀ j : Fin 1, ((fun _ : Fin 1 => exB) j).Shaped (rblk := exA.rblk) := by
    intro j r; cases r <;> rfl
  obtain ⟨X, hX⟩ := C24_returns (exactSolver ℚ) (exactSolver ℚ) (exactSolver_complete ℚ)
    (exactSolver_complete ℚ) false false exA (fun _ : Fin 1 => exB) exA_shaped rfl rfl rfl rfl rfl
    (by
      rintro a (h | ⟨s, h⟩)
      · cases h
      · change (if s = 0 then m1 1 else m1 2) = a at h
        subst h
        by_cases h0 : s = 0
        · rw [if_pos h0]; exact m1_inv one_ne_zero
        · rw [if_neg h0]; exact m1_inv two_ne_zero)
    (by
      intro X hX hsol c s
      obtain ⟨x, hx⟩ := sited_of (hX false)
      obtain ⟨y, hy⟩ := dense_of (hX true)
      have k0 := hsol false (0 : Fin 2) ()
      have k1 := hsol false (1 : Fin 2) ()
      have k2 := hsol true () ()
      rw [sum_up _ false] at k0 k1 k2
      rw [show (!false) = true from rfl, hx, hy] at k0 k1 k2
      change Fin 2 → Mat ℚ 1 1 at x
      change Mat ℚ 1 1 at y
      change (∑ t : Fin 2, (if (0 : Fin 2) = t then m1 1 else 0) * x t) + ∑ t : Unit, m1 1 * y
        = 0 at k0
      change (∑ t : Fin 2, (if (1 : Fin 2) = t then m1 2 else 0) * x t) + ∑ t : Unit, m1 1 * y
        = 0 at k1
      change (∑ t : Fin 2, m1 1 * x t) + ∑ t : Unit, m1 4 * y = 0 at k2
      rw [sum_diag] at k0 k1
      rw [Fin.sum_univ_two] at k2
      rw [m1_eta (x 0), m1_eta y] at k0
      rw [m1_eta (x 1), m1_eta y] at k1
      rw [m1_eta (x 0), m1_eta (x 1), m1_eta y] at k2
      simp only [Finset.univ_unique, Finset.sum_const, Finset.card_singleton, one_smul, m1_mul,
        m1_add, m1_zero, m1_inj] at k0 k1 k2
      have y0 : y 0 0 = 0 := by linarith
      have x0 : x 0 0 0 = 0 := by linarith
      have x1 : x 1 0 0 = 0 := by linarith
      cases c
      · rw [hx]
        change Fin 2 at s
        show x s = 0
        rw [m1_eta (x s), m1_zero, m1_inj]
        fin_cases s
        · exact x0
        · exact x1
      · rw [hy]
        show y = 0
        rw [m1_eta y, y0]; rfl)
  exact ⟨X, hX, C24_solves _ _ _ _ _ _ X exA_shaped hB rfl rfl rfl (fun _ => rfl) hX 0,
    fun r => C70_inverse _ _ _ _ _ _ X exA_shaped hB rfl rfl rfl (fun _ => rfl) hX 0 r⟩

/-! ## C71: a BLOCK second group -/

/-- DENSE primary group, BLOCK second group with two sites:
`x + y_a + y_b = 0`, `x + 3 y_a = 2`, `x + 3 y_b = 0`. -/
def dpA : GMat ℚ 2 where
  rsz _ := 1
  csz _ := 1
  rblk r := r
  cblk c := c
  blk r c := match r, c with
    | false, false => .dense (m1 1)
    | false, true => .sited fun _ => m1 1
    | true, false => .sited fun _ => m1 1
    | true, true => .sited fun _ => m1 3

/-- Its right-hand side. -/
def dpB : GRhs ℚ 2 dpA.rsz where
  width := 1
  cblk := false
  blk r := match r with
    | false => .dense (m1 0)
    | true => .sited fun s => if s = 0 then m1 2 else m1 0

/-- Its solution: `x = -2`, `y_a = 4/3`, `y_b = 2/3`. -/
lemma dp_solvable : Solves dpA dpB (fun c => match c with
    | false => .dense (m1 (-2))
    | true => .sited fun s => if s = 0 then m1 (4 / 3) else m1 (2 / 3)) := by
  intro r s s'
  rw [sum_up _ false]
  cases r
  · show (∑ t : Unit, m1 1 * m1 (-2)) +
      (∑ t : Fin 2, m1 1 * (if t = 0 then m1 (4 / 3) else m1 (2 / 3))) = m1 0
    rw [Fin.sum_univ_two]
    simp only [Finset.univ_unique, Finset.sum_const, Finset.card_singleton, one_smul, m1_mul,
      if_pos, m1_add]
    rw [if_neg (by decide), m1_mul, m1_add, m1_add, m1_inj]
    norm_num
  · change Fin 2 at s
    show (∑ t : Unit, m1 1 * m1 (-2)) +
      (∑ t : Fin 2, (if s = t then m1 3 else 0) * (if t = 0 then m1 (4 / 3) else m1 (2 / 3)))
      = (if s = 0 then m1 2 else m1 0)
    rw [sum_diag]
    simp only [Finset.univ_unique, Finset.sum_const, Finset.card_singleton, one_smul, m1_mul]
    fin_cases s
    · simp only [Fin.zero_eta, if_pos, m1_mul, m1_add, m1_inj]; norm_num
    · simp only [Fin.mk_one, one_ne_zero, if_false, m1_mul, m1_add, m1_inj]; norm_num

/-- **C71 is violated (DENSE primary group).** On a solvable system the Schur solver with a DENSE
primary and a BLOCK second group returns values that do not solve it, whatever exact sub-solvers are
used: the Schur complement is formed site by site and loses the coupling between sites that goes
through the primary group. -/
theorem C71_dense_primary_violation :
    (∃ X, Solves dpA dpB X) ∧
    ∀ (P Q : LinSolver ℚ),
      (P.Complete → Q.Complete →
        ∃ X, schurSolve P Q false false dpA (fun _ : Fin 1 => dpB) = some X) ∧
      ∀ X : (j : Fin 1) → GSol ℚ 2 dpA.csz 1,
        schurSolve P Q false false dpA (fun _ : Fin 1 => dpB) = some X →
        ¬ Solves dpA dpB (X 0).get := by
  refine ⟨⟨_, dp_solvable⟩, fun P Q => ⟨?_, ?_⟩⟩
  · intro hP hQ
    refine returns_of hP hQ _ rfl ?_ ?_
    · rintro a (h | ⟨s, h⟩)
      · cases h; exact m1_inv one_ne_zero
      · change m1 1 = a at h; subst h; exact m1_inv one_ne_zero
    · intro Y hY a ha
      have zY := tsolve_sited P hY
      obtain ⟨Y, rfl⟩ := sited_of zY
      change Fin 2 → Mat ℚ 1 1 at Y
      have eY : ∀ s, m1 1 * Y s = m1 1 := fun s => tsolve_at P hY s
      rcases ha with h | ⟨s, h⟩
      · cases h
      · change m1 3 - m1 1 * Y s = a at h
        rw [eY s, m1_sub] at h
        subst h; exact m1_inv (by norm_num)
  · intro X h hsol
    obtain ⟨Y, hY, hj⟩ := schurSolve_some h
    obtain ⟨Z, Xs, hZ, hXs, e1, e2⟩ := hj 0
    have zY := tsolve_sited P hY
    obtain ⟨Y, rfl⟩ := sited_of zY
    obtain ⟨Z, rfl, eZ⟩ := tsolve_dense P hZ
    have zX := tsolve_sited Q hXs
    obtain ⟨Xs, rfl⟩ := sited_of zX
    change Fin 2 → Mat ℚ 1 1 at Y Xs
    change Mat ℚ 1 1 at Z
    have eY : ∀ s, m1 1 * Y s = m1 1 := fun s => tsolve_at P hY s
    have eX : ∀ s, (m1 3 - m1 1 * Y s) * Xs s = (if s = 0 then m1 2 else m1 0) - m1 1 * Z :=
      fun s => tsolve_at Q hXs s
    change m1 1 * Z = m1 0 at eZ
    have e1' : (X 0).get false = .dense (Z - ∑ s, Y s * Xs s) := e1
    have e2' : (X 0).get true = .sited Xs := e2
    have k := hsol true (1 : Fin 2) ()
    rw [sum_up _ false, show (!false) = true from rfl, e1', e2'] at k
    change (∑ t : Unit, m1 1 * (Z - ∑ s, Y s * Xs s)) +
      (∑ t : Fin 2, (if (1 : Fin 2) = t then m1 3 else 0) * Xs t) = m1 0 at k
    rw [sum_diag, Fin.sum_univ_two] at k
    have y0 := eY 0
    have y1 := eY 1
    have x0 := eX 0
    have x1 := eX 1
    rw [m1_eta (Y 0)] at y0 x0 k
    rw [m1_eta (Y 1)] at y1 x1 k
    rw [m1_eta (Xs 0)] at x0 k
    rw [m1_eta (Xs 1)] at x1 k
    rw [m1_eta Z] at eZ x0 x1 k
    simp only [Finset.univ_unique, Finset.sum_const, Finset.card_singleton, one_smul, m1_mul,
      m1_add, m1_sub, m1_zero, m1_inj, if_true, one_ne_zero, if_false, one_mul] at y0 y1 x0 x1 eZ k
    rw [y0, eZ] at x0
    rw [y1, eZ] at x1
    rw [y0, y1, eZ] at k
    linarith

/-- Two BLOCK groups on the same two sites, every block the same at each site:
`x_s + y_s = 0`, `x_s + 3 y_s = 1`. -/
def bbA : GMat ℚ 2 where
  rsz _ := 1
  csz _ := 1
  rblk _ := true
  cblk _ := true
  blk r c := match r, c with
    | true, true => .sited fun _ => m1 3
    | _, _ => .sited fun _ => m1 1

/-- Its right-hand side. -/
def bbB : GRhs ℚ 2 bbA.rsz where
  width := 1
  cblk := false
  blk r := match r with
    | false => .sited fun _ => m1 0
    | true => .sited fun _ => m1 1

/-- **C71 is violated (two BLOCK groups).** With two BLOCK groups the products inside the Schur
solver add up the sites although the system is diagonal over them, and the result is wrong. -/
theorem C71_block_block_violation :
    (∃ X, Solves bbA bbB X) ∧
    ∀ (P Q : LinSolver ℚ),
      (P.Complete → Q.Complete →
        ∃ X, schurSolve P Q false false bbA (fun _ : Fin 1 => bbB) = some X) ∧
      ∀ X : (j : Fin 1) → GSol ℚ 2 bbA.csz 1,
        schurSolve P Q false false bbA (fun _ : Fin 1 => bbB) = some X →
        ¬ Solves bbA bbB (X 0).get := by
  refine ⟨⟨fun c => .sited fun _ => if c then m1 (1 / 2) else m1 (-1 / 2), ?_⟩,
    fun P Q => ⟨?_, ?_⟩⟩
  · intro r s s'
    rw [sum_up _ false]
    change Fin 2 at s
    cases r
    · show (∑ t : Fin 2, (if s = t then m1 1 else 0) * m1 (-1 / 2)) +
        (∑ t : Fin 2, (if s = t then m1 1 else 0) * m1 (1 / 2)) = m1 0
      rw [sum_diag, sum_diag, m1_mul, m1_mul, m1_add, m1_inj]; norm_num
    · show (∑ t : Fin 2, (if s = t then m1 1 else 0) * m1 (-1 / 2)) +
        (∑ t : Fin 2, (if s = t then m1 3 else 0) * m1 (1 / 2)) = m1 1
      rw [sum_diag, sum_diag, m1_mul, m1_mul, m1_add, m1_inj]; norm_num
  · intro hP hQ
    refine returns_of hP hQ _ rfl ?_ ?_
    · rintro a (h | ⟨s, h⟩)
      · cases h
      · change m1 1 = a at h; subst h; exact m1_inv one_ne_zero
    · intro Y hY a ha
      have zY := tsolve_sited P hY
      obtain ⟨Y, rfl⟩ := sited_of zY
      change Fin 2 → Mat ℚ 1 1 at Y
      have eY : ∀ s, m1 1 * Y s = m1 1 := fun s => tsolve_at P hY s
      rcases ha with h | ⟨s, h⟩
      · cases h
      · change m1 3 - (∑ s, m1 1 * Y s) = a at h
        rw [Fin.sum_univ_two, eY 0, eY 1, m1_add, m1_sub] at h
        subst h; exact m1_inv (by norm_num)
  · intro X h hsol
    obtain ⟨Y, hY, hj⟩ := schurSolve_some h
    obtain ⟨Z, Xs, hZ, hXs, e1, e2⟩ := hj 0
    obtain ⟨Y, rfl⟩ := sited_of (tsolve_sited P hY)
    obtain ⟨Z, rfl⟩ := sited_of (tsolve_sited P hZ)
    obtain ⟨Xs, rfl⟩ := sited_of (tsolve_sited Q hXs)
    change Fin 2 → Mat ℚ 1 1 at Y Xs Z
    have eY : ∀ s, m1 1 * Y s = m1 1 := fun s => tsolve_at P hY s
    have eZ : ∀ s, m1 1 * Z s = m1 0 := fun s => tsolve_at P hZ s
    have eX : ∀ s, (m1 3 - ∑ t, m1 1 * Y t) * Xs s = m1 1 - ∑ t, m1 1 * Z t :=
      fun s => tsolve_at Q hXs s
    have e1' : (X 0).get false = .sited fun s => Z s - ∑ t, Y t * Xs t := e1
    have e2' : (X 0).get true = .sited Xs := e2
    have k := hsol false (0 : Fin 2) ()
    rw [sum_up _ false, show (!false) = true from rfl, e1', e2'] at k
    change (∑ t : Fin 2, (if (0 : Fin 2) = t then m1 1 else 0) * (Z t - ∑ s, Y s * Xs s)) +
      (∑ t : Fin 2, (if (0 : Fin 2) = t then m1 1 else 0) * Xs t) = m1 0 at k
    rw [sum_diag, sum_diag, Fin.sum_univ_two] at k
    have y0 := eY 0
    have y1 := eY 1
    have z0 := eZ 0
    have z1 := eZ 1
    have x0 := eX 0
    have x1 := eX 1
    rw [Fin.sum_univ_two, Fin.sum_univ_two, y0, y1, z0, z1] at x0 x1
    rw [m1_eta (Y 0)] at y0 k
    rw [m1_eta (Y 1)] at y1 k
    rw [m1_eta (Xs 0)] at x0 k
    rw [m1_eta (Xs 1)] at x1 k
    rw [m1_eta (Z 0)] at z0 k
    simp only [m1_mul, m1_add, m1_sub, m1_zero, m1_inj, one_mul] at y0 y1 x0 x1 z0 k
    rw [y0, y1, z0] at k
    linarith

/-- **C71, partial.** The full claim ("the Schur solver solves the full system whatever the
structures of the two groups") fails; it holds when the second group is DENSE. -/
theorem C71_dense_second_group_partial (P Q : LinSolver K) (rp up : Bool) (A : GMat K N)
    (B : GRhs K N A.rsz) (X : Fin 1 → GSol K N A.csz B.width)
    (hA : A.Shaped) (hB : B.Shaped (rblk := A.rblk))
    (hp : A.rblk rp = A.cblk up) (hs : A.rblk (!rp) = false) (hs' : A.cblk (!up) = false)
    (hw : B.cblk = false) (h : schurSolve P Q rp up A (fun _ : Fin 1 => B) = some X) :
    Solves A B (X 0).get :=
  C24_solves P Q rp up A _ X hA (fun _ => hB) hp hs hs' (fun _ => hw) h 0

/-! ## C72: a BLOCK column group on the right-hand side -/

/-- A right-hand side for `exA` whose columns are one per site (`∂/∂g_s` of a per-site given):
the identity on the primary rows, zero on the second group. -/
def siteB : GRhs ℚ 2 exA.rsz where
  width := 1
  cblk := true
  blk r := match r with
    | false => .sited fun _ => m1 1
    | true => .sited fun _ => m1 0

/-- The storage chosen for such a solution (one matrix per site) cannot hold the solution at all. -/
theorem C72_not_representable_violation (X : (c : Bool) → T 2 (Mat ℚ (exA.csz c) 1)) :
    ¬ Solves exA siteB X := by
  intro hsol
  have k0 := hsol false (1 : Fin 2) (0 : Fin 2)
  have k1 := hsol false (0 : Fin 2) (0 : Fin 2)
  have k2 := hsol true () (0 : Fin 2)
  rw [sum_up _ false] at k0 k1 k2
  generalize X false = x at k0 k1 k2
  generalize X (!false) = y at k0 k1 k2
  change T 2 (Mat ℚ 1 1) at x y
  change (∑ t : Fin 2, (if (1 : Fin 2) = t then m1 2 else 0) * (if t = 0 then x.at t else 0)) +
    (∑ t : Unit, m1 1 * y.at 0) = 0 at k0
  change (∑ t : Fin 2, (if (0 : Fin 2) = t then m1 1 else 0) * (if t = 0 then x.at t else 0)) +
    (∑ t : Unit, m1 1 * y.at 0) = m1 1 at k1
  change (∑ t : Fin 2, m1 1 * (if t = 0 then x.at t else 0)) + (∑ t : Unit, m1 4 * y.at 0)
    = m1 0 at k2
  rw [sum_diag] at k0 k1
  rw [Fin.sum_univ_two] at k2
  rw [m1_eta (x.at 0)] at k1 k2
  rw [m1_eta (y.at 0)] at k0 k1 k2
  simp only [Finset.univ_unique, Finset.sum_const, Finset.card_singleton, one_smul, if_true,
    one_ne_zero, if_false, m1_mul, m1_add, m1_zero, m1_inj, one_mul, mul_zero] at k0 k1 k2
  linarith

/-- **C72 is violated.** For a per-site (BLOCK) column group of the right-hand side — the storage the
equation system chooses for per-site givens — the returned sensitivities do not solve the system:
`A_sp @ Z` adds up columns that belong to different sites. Also the site-less part `X_s`, which the
storage could hold, differs from the one of the exact solution `xp t s'`, `xs s'` (rows `t`, column
`s'`). -/
theorem C72_site_columns_violation :
    ∀ (P Q : LinSolver ℚ),
      (P.Complete → Q.Complete →
        ∃ X, schurSolve P Q false false exA (fun _ : Fin 1 => siteB) = some X) ∧
      ∀ X : (j : Fin 1) → GSol ℚ 2 exA.csz 1,
        schurSolve P Q false false exA (fun _ : Fin 1 => siteB) = some X →
        ¬ Solves exA siteB (X 0).get ∧
        ∀ (xp : Fin 2 → Fin 2 → ℚ) (xs : Fin 2 → ℚ),
          (∀ s t : Fin 2, (if s = 0 then 1 else 2) * xp s t + xs t = if s = t then 1 else 0) →
          (∀ t : Fin 2, xp 0 t + xp 1 t + 4 * xs t = 0) →
          (X 0).get true ≠ .sited fun t => m1 (xs t) := by
  refine fun P Q => ⟨?_, ?_⟩
  · intro hP hQ
    refine returns_of hP hQ _ rfl ?_ ?_
    · rintro a (h | ⟨s, h⟩)
      · cases h
      · change (if s = 0 then m1 1 else m1 2) = a at h
        subst h
        by_cases h0 : s = 0
        · rw [if_pos h0]; exact m1_inv one_ne_zero
        · rw [if_neg h0]; exact m1_inv two_ne_zero
    · intro Y hY a ha
      have zY := tsolve_sited P hY
      obtain ⟨Y, rfl⟩ := sited_of zY
      change Fin 2 → Mat ℚ 1 1 at Y
      have eY : ∀ s, (if s = 0 then m1 1 else m1 2) * Y s = m1 1 := fun s => tsolve_at P hY s
      have key : m1 4 - (∑ s, m1 1 * Y s) = m1 (5 / 2) := by
        have y0 := eY 0
        have y1 := eY 1
        rw [Fin.sum_univ_two]
        rw [m1_eta (Y 0)] at y0 ⊢
        rw [m1_eta (Y 1)] at y1 ⊢
        simp only [m1_mul, m1_add, m1_sub, m1_inj, if_true, one_ne_zero, if_false,
          one_mul] at y0 y1 ⊢
        rw [y0]; linarith
      rcases ha with h | ⟨s, h⟩
      · injection h with h
        change m1 4 - (∑ s, m1 1 * Y s) = a at h
        rw [key] at h; subst h; exact m1_inv (by norm_num)
      · change m1 4 - (∑ s, m1 1 * Y s) = a at h
        rw [key] at h; subst h; exact m1_inv (by norm_num)
  · intro X h
    refine ⟨C72_not_representable_violation _, fun xp xs h1 h2 he => ?_⟩
    obtain ⟨Y, hY, hj⟩ := schurSolve_some h
    obtain ⟨Z, Xs, hZ, hXs, e1, e2⟩ := hj 0
    obtain ⟨Y, rfl⟩ := sited_of (tsolve_sited P hY)
    obtain ⟨Z, rfl⟩ := sited_of (tsolve_sited P hZ)
    obtain ⟨Xs, rfl⟩ := sited_of (tsolve_sited Q hXs)
    change Fin 2 → Mat ℚ 1 1 at Y Xs Z
    have eY : ∀ s, (if s = 0 then m1 1 else m1 2) * Y s = m1 1 := fun s => tsolve_at P hY s
    have eZ : ∀ s, (if s = 0 then m1 1 else m1 2) * Z s = m1 1 := fun s => tsolve_at P hZ s
    have eX : ∀ s, (m1 4 - ∑ t, m1 1 * Y t) * Xs s = m1 0 - ∑ t, m1 1 * Z t :=
      fun s => tsolve_at Q hXs s
    have e2' : (X 0).get true = .sited Xs := e2
    rw [e2'] at he
    have hx : Xs 0 = m1 (xs 0) := congrFun (T.sited.inj he) 0
    have y0 := eY 0
    have y1 := eY 1
    have z0 := eZ 0
    have z1 := eZ 1
    have x0 := eX 0
    rw [Fin.sum_univ_two, Fin.sum_univ_two] at x0
    rw [m1_eta (Y 0)] at y0 x0
    rw [m1_eta (Y 1)] at y1 x0
    rw [hx] at x0
    rw [m1_eta (Z 0)] at z0 x0
    rw [m1_eta (Z 1)] at z1 x0
    simp only [if_true, one_ne_zero, if_false, m1_mul, m1_add, m1_sub, m1_zero, m1_inj,
      one_mul] at y0 y1 x0 z0 z1
    have y1' : Y 1 0 0 = 1 / 2 := by linarith
    have z1' : Z 1 0 0 = 1 / 2 := by linarith
    rw [y0, y1', z0, z1'] at x0
    have a0 := h1 0 0
    have a1 := h1 1 0
    have a2 := h2 0
    simp only [if_true, one_ne_zero, if_false, one_mul] at a0 a1
    linarith

/-- **C72, partial.** The full claim ("the Schur solver solves the full system whatever the
structure of the right-hand-side columns") fails; it holds for every DENSE column group, in
particular for several of them at once. -/
theorem C72_dense_columns_partial (P Q : LinSolver K) (rp up : Bool) (A : GMat K N) {nc : ℕ}
    (B : Fin nc → GRhs K N A.rsz) (X : (j : Fin nc) → GSol K N A.csz (B j).width)
    (hA : A.Shaped) (hB : ∀ j, (B j).Shaped (rblk := A.rblk))
    (hp : A.rblk rp = A.cblk up) (hs : A.rblk (!rp) = false) (hs' : A.cblk (!up) = false)
    (hw : ∀ j, (B j).cblk = false) (h : schurSolve P Q rp up A B = some X) (j : Fin nc) :
    Solves A (B j) (X j).get :=
  C24_solves P Q rp up A B X hA hB hp hs hs' hw h j

/-! ## C25: LU caching -/

/-- The cache holds the factors of what its source tensor contained at the recorded version, and
that version is not ahead of the tensor's. -/
def LUInv {M F : Type} (fn : M → F) (h : Heap M) (c : LUState F) : Prop :=
  (c.src = none ∧ c.version = none) ∨
  ∃ i v f, c = ⟨some i, some v, some f⟩ ∧ v ≤ h.ver i ∧ (h.ver i = v → f = fn (h.val i))

lemma LUInv.factor {M F : Type} {fn : M → F} {h : Heap M} {c : LUState F} (inv : LUInv fn h c)
    (i : ℕ) : LUInv fn h (c.factor fn h i).1 ∧ (c.factor fn h i).2 = some (fn (h.val i)) := by
  unfold LUState.factor
  split
  · exact ⟨Or.inr ⟨i, h.ver i, fn (h.val i), rfl, le_refl _, fun _ => rfl⟩, rfl⟩
  · rename_i hn
    push Not at hn
    obtain ⟨h1, h2⟩ := hn
    refine ⟨inv, ?_⟩
    rcases inv with ⟨hs, _⟩ | ⟨j, v, f, rfl, hv, hf⟩
    · rw [hs] at h1; cases h1
    · cases h1
      have : h.ver i = v := Option.some.inj h2
      rw [hf this]

lemma LUInv.step {M F : Type} {fn : M → F} {s : Heap M × LUState F} (inv : LUInv fn s.1 s.2)
    (o : LUOp M) : LUInv fn (luStep fn s o).1.1 (luStep fn s o).1.2 := by
  obtain ⟨h, c⟩ := s
  cases o with
  | edit i x =>
    rcases inv with hn | ⟨j, v, f, hc, hv, hf⟩
    · exact Or.inl hn
    · refine Or.inr ⟨j, v, f, hc, ?_, ?_⟩
      · show v ≤ (if j = i then h.ver j + 1 else h.ver j)
        split
        · exact Nat.le_succ_of_le hv
        · exact hv
      · show (if j = i then h.ver j + 1 else h.ver j) = v → f = fn (if j = i then x else h.val j)
        split
        · intro he
          have hv' : v ≤ h.ver j := hv
          omega
        · exact hf
  | reuse i x =>
    show LUInv fn (if c.src = some i then (h, c) else (h.alloc i x, c)).1
      (if c.src = some i then (h, c) else (h.alloc i x, c)).2
    split
    · exact inv
    · rename_i hn
      rcases inv with hn' | ⟨j, v, f, hc, hv, hf⟩
      · exact Or.inl hn'
      · have hji : j ≠ i := by
          intro e; apply hn; have : c = _ := hc; rw [this, e]
        refine Or.inr ⟨j, v, f, hc, ?_, ?_⟩
        · show v ≤ (if j = i then 0 else h.ver j)
          rw [if_neg hji]; exact hv
        · show (if j = i then 0 else h.ver j) = v → f = fn (if j = i then x else h.val j)
          rw [if_neg hji, if_neg hji]; exact hf
  | invalidate => exact Or.inl ⟨rfl, rfl⟩
  | factor i => exact (LUInv.factor inv i).1

lemma LUInv.run {M F : Type} {fn : M → F} (ops : List (LUOp M)) {s : Heap M × LUState F}
    (inv : LUInv fn s.1 s.2) : LUInv fn (luRun fn s ops).1 (luRun fn s ops).2 := by
  induction ops generalizing s with
  | nil => exact inv
  | cons o os ih => exact ih (LUInv.step inv o)

/-- **C25.** After any history of in-place edits, address reuse, invalidations and factorizations
of any tensors, the factorization handed out for a tensor is the one of its present contents. -/
theorem C25_fresh {M F : Type} (fn : M → F) (h : Heap M) (ops : List (LUOp M)) (i : ℕ) :
    (luStep fn (luRun fn (h, LUState.empty) ops) (.factor i)).2 =
      some (some (fn ((luRun fn (h, LUState.empty) ops).1.val i))) := by
  have inv := LUInv.run (fn := fn) ops (s := (h, LUState.empty)) (Or.inl ⟨rfl, rfl⟩)
  exact congrArg some (LUInv.factor inv i).2

/-- **C25, reuse.** Asking again for the same unedited tensor does not change the cache, so a run of
solves against one matrix factors once. -/
theorem C25_reused {M F : Type} (fn : M → F) (h : Heap M) (c : LUState F) (i : ℕ) :
    ((c.factor fn h i).1.factor fn h i).1 = (c.factor fn h i).1 ∧
    ∀ fn' : M → F, ((c.factor fn h i).1.factor fn' h i).2 = (c.factor fn h i).2 := by
  have key : some i = (c.factor fn h i).1.src ∧ some (h.ver i) = (c.factor fn h i).1.version := by
    unfold LUState.factor
    split
    · exact ⟨rfl, rfl⟩
    · rename_i hn; push Not at hn; exact hn
  have two : ∀ fn' : M → F, (c.factor fn h i).1.factor fn' h i =
      ((c.factor fn h i).1, (c.factor fn h i).1.fac) := by
    intro fn'
    generalize (c.factor fn h i).1 = d at key
    unfold LUState.factor
    rw [if_neg (by push Not; exact key)]
  refine ⟨by rw [two], fun fn' => ?_⟩
  rw [two]
  unfold LUState.factor
  split <;> rfl

/-- A history with every kind of step: the answer is that of the edited contents. -/
example : (luStep (fun m : ℕ => m * 10)
    (luRun (fun m : ℕ => m * 10) (⟨fun k => k, fun _ => 0⟩, LUState.empty)
      [.factor 1, .edit 1 5, .reuse 2 7, .factor 1, .edit 1 6]) (.factor 1)).2 = some (some 60) := by
  decide

/-! ## C73: the pyzag operator keeps its own copy of the factors -/

/-- **C73 is violated.** A solve after an in-place edit of the operator's tensor uses the factors of
the old contents: `_ensure_lu` never consults the version-checked cache again. -/
theorem C73_stale_violation :
    ∃ (fn : ℕ → ℕ) (h : Heap ℕ) (ops : List (OpOp ℕ)),
      (opStep fn (opRun fn (h, OpState.new 0) ops) .solve).2 ≠
        some (some (fn ((opRun fn (h, OpState.new 0) ops).1.val
          (opRun fn (h, OpState.new 0) ops).2.am))) :=
  ⟨id, ⟨fun _ => 3, fun _ => 0⟩, [.solve, .edit 0 4], by decide⟩

/-- The step does not edit the tensor the operator refers to. -/
def OpOp.keeps {M F : Type} (o : OpOp M) (s : OpState F) : Prop :=
  match o with
  | .edit i _ => i ≠ s.am
  | _ => True

/-- No step of the program edits the operator's current tensor in place. -/
def opKeeps {M F : Type} (fn : M → F) (s : Heap M × OpState F) : List (OpOp M) → Prop
  | [] => True
  | o :: os => o.keeps s.2 ∧ opKeeps fn (opStep fn s o).1 os

/-- **C73, partial.** The full claim ("a solve uses the factors of the present contents") fails; it
holds for every history in which the operator's own tensor is only changed through `__setitem__`. -/
theorem C73_setitem_partial {M F : Type} (fn : M → F) (h : Heap M) (a : ℕ) (ops : List (OpOp M))
    (hk : opKeeps fn (h, (OpState.new a : OpState F)) ops) :
    (opStep fn (opRun fn (h, OpState.new a) ops) .solve).2 =
      some (some (fn ((opRun fn (h, OpState.new a) ops).1.val
        (opRun fn (h, OpState.new a) ops).2.am))) := by
  -- invariant: the working copy, if any, is the factorization of the present contents, and without
  -- a working copy the inner cache is empty
  have inv : ∀ (ops : List (OpOp M)) (s : Heap M × OpState F),
      (∀ f, s.2.lu = some f → f = fn (s.1.val s.2.am)) →
      (s.2.lu = none → s.2.cache = LUState.empty) → opKeeps fn s ops →
      (∀ f, (opRun fn s ops).2.lu = some f →
        f = fn ((opRun fn s ops).1.val (opRun fn s ops).2.am)) ∧
      ((opRun fn s ops).2.lu = none → (opRun fn s ops).2.cache = LUState.empty) := by
    intro ops
    induction ops with
    | nil => intro s h1 h2 _; exact ⟨h1, h2⟩
    | cons o os ih =>
      intro s h1 h2 hk
      obtain ⟨hk1, hk2⟩ := hk
      refine ih _ ?_ ?_ hk2
      · cases o with
        | edit i x =>
          intro f hf
          have hne : i ≠ s.2.am := hk1
          show f = fn (if s.2.am = i then x else s.1.val s.2.am)
          rw [if_neg (Ne.symm hne)]
          exact h1 f hf
        | setitem j => intro f hf; cases hf
        | solve =>
          intro f hf
          show f = fn (s.1.val (s.2.ensure fn s.1).am)
          change (s.2.ensure fn s.1).lu = some f at hf
          unfold OpState.ensure at hf ⊢
          cases hl : s.2.lu with
          | some g =>
            rw [hl] at hf
            exact h1 f hf
          | none =>
            rw [hl] at hf
            have he := h2 hl
            simp only [he, LUState.factor, LUState.empty] at hf
            exact (Option.some.inj hf).symm
      · cases o with
        | edit i x => exact h2
        | setitem j => intro _; rfl
        | solve =>
          intro hf
          change (s.2.ensure fn s.1).lu = none at hf
          unfold OpState.ensure at hf
          cases hl : s.2.lu with
          | some g => rw [hl] at hf; simp only at hf; rw [hl] at hf; cases hf
          | none =>
            rw [hl] at hf
            have he := h2 hl
            simp [he, LUState.factor, LUState.empty] at hf
  obtain ⟨i1, i2⟩ := inv ops (h, OpState.new a) (fun f hf => by cases hf) (fun _ => rfl) hk
  generalize opRun fn (h, OpState.new a) ops = s at i1 i2
  show some (s.2.ensure fn s.1).lu = some (some (fn (s.1.val s.2.am)))
  congr 1
  unfold OpState.ensure
  cases hl : s.2.lu with
  | some g => simp only; rw [hl, i1 g hl]
  | none =>
    simp only
    rw [i2 hl]
    rfl

example : opKeeps (F := ℕ) (fun m : ℕ => m) (⟨fun k => k, fun _ => 0⟩, OpState.new 0)
    [.solve, .edit 3 9, .setitem 3, .solve] := by
  refine ⟨trivial, ?_, trivial, trivial, trivial⟩
  show (3 : ℕ) ≠ 0
  decide

end Verif.Solver
