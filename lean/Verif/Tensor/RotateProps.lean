import Verif.Tensor.PackProps
import Mathlib.Analysis.Calculus.Deriv.Mul
import Mathlib.Analysis.Calculus.Deriv.Add

/-! # Rotating tensors (C89) and the derivatives of rotations (C90) -/

set_option linter.unusedSimpArgs false

namespace Verif.Tensor

open Matrix

/-- The matrix of a symmetric result is the result. -/
theorem full_sym_of_symm {M : R2} (h : Mᵀ = M) : fullOfSym (sym M) = M := by
  rw [C55_sym_roundtrip, h, ← two_smul ℝ M, smul_smul]; norm_num

/-- **C89** Rotating the six components rotates the matrix. -/
theorem C89_sym (cuda : Bool) (s : SR2) (R : R2) :
    fullOfSym (rotateSym cuda s R) = R * fullOfSym s * Rᵀ := by
  unfold rotateSym
  simp only [(C55_matmul cuda _ _ 0).1]
  apply full_sym_of_symm
  rw [transpose_mul, transpose_mul, transpose_transpose, C55_full_symmetric, Matrix.mul_assoc]

/-- **C89** Rotating the three components of a skew tensor rotates its matrix. -/
theorem C89_skew (cuda : Bool) (w : WR2) (R : R2) :
    fullOfSkew (rotateSkew cuda w R) = R * fullOfSkew w * Rᵀ := by
  unfold rotateSkew
  simp only [(C55_matmul cuda _ _ 0).1]
  rw [C55_skew_roundtrip]
  have hs : (fullOfSkew w)ᵀ = -fullOfSkew w := by
    ext i j; fin_cases i <;> fin_cases j <;> simp [fullOfSkew]
  rw [transpose_mul, transpose_mul, transpose_transpose, hs, ← Matrix.mul_assoc]
  simp only [Matrix.mul_neg, Matrix.neg_mul, sub_neg_eq_add]
  rw [← two_smul ℝ, smul_smul]; norm_num

/-- **C89** A proper rotation rotates the axial vector of a skew tensor as a vector. -/
theorem C89_skew_axial (cuda : Bool) (w : WR2) (R : R2) (ho : R * Rᵀ = 1) (hd : R.det = 1) :
    rotateSkew cuda w R = R.mulVec w := by
  have hadj : R.adjugate = Rᵀ := by
    have h1 : R * R.adjugate = 1 := by rw [Matrix.mul_adjugate, hd, one_smul]
    have h2 : Rᵀ * R = 1 := mul_eq_one_comm.mp ho
    calc R.adjugate = (Rᵀ * R) * R.adjugate := by rw [h2, Matrix.one_mul]
      _ = Rᵀ := by rw [Matrix.mul_assoc, h1, Matrix.mul_one]
  rw [Matrix.adjugate_fin_three] at hadj
  have hc : ∀ i j, (!![R 1 1 * R 2 2 - R 1 2 * R 2 1, -(R 0 1 * R 2 2) + R 0 2 * R 2 1,
      R 0 1 * R 1 2 - R 0 2 * R 1 1; -(R 1 0 * R 2 2) + R 1 2 * R 2 0, R 0 0 * R 2 2 - R 0 2 * R 2 0,
      -(R 0 0 * R 1 2) + R 0 2 * R 1 0; R 1 0 * R 2 1 - R 1 1 * R 2 0, -(R 0 0 * R 2 1) + R 0 1 * R 2 0,
      R 0 0 * R 1 1 - R 0 1 * R 1 0] : R2) i j = R j i := fun i j => congrFun (congrFun hadj i) j
  unfold rotateSkew
  simp only [(C55_matmul cuda _ _ 0).1]
  ext i
  simp only [skew, Matrix.mul_apply, Matrix.mulVec, dotProduct, Fin.sum_univ_three, transpose_apply]
  fin_cases i
  · have a := hc 0 0; have b := hc 1 0; have c := hc 2 0
    simp [fullOfSkew] at a b c ⊢
    linear_combination w 0 * a + w 1 * b + w 2 * c
  · have a := hc 0 1; have b := hc 1 1; have c := hc 2 1
    simp [fullOfSkew] at a b c ⊢
    linear_combination w 0 * a + w 1 * b + w 2 * c
  · have a := hc 0 2; have b := hc 1 2; have c := hc 2 2
    simp [fullOfSkew] at a b c ⊢
    linear_combination w 0 * a + w 1 * b + w 2 * c

/-- **C89** Rotating a matrix. -/
theorem C89_R2 (cuda : Bool) (a R : R2) : rotateR2 cuda a R = R * a * Rᵀ := by
  simp only [rotateR2, (C55_matmul cuda _ _ 0).1]

/-- The 6 × 6 matrix of a rotation acts on the six components as the rotation. -/
theorem mandelBasis_apply (R : R2) (s : SR2) :
    fullOfSym ((mandelBasis R).mulVec s) = R * fullOfSym s * Rᵀ := by
  rw [← C89_sym false s R]
  congr 1
  unfold rotateSym
  simp only [(C55_matmul false _ _ 0).1]
  have h := sq2_isq2
  have h2 : isq2 = sq2 / 2 := isq2_eq
  have h3 := sq2_sq
  ext i
  simp only [Matrix.mulVec, dotProduct, Fin.sum_univ_six]
  fin_cases i <;>
    simp [sym, Matrix.mul_apply, Fin.sum_univ_three, mandelBasis, fullOfSym, -one_div, h2] <;>
    first
      | ring1
      | skip
  · linear_combination (-(R 1 1 * R 2 2 + R 1 2 * R 2 1) * s 3 / 2 - (R 1 0 * R 2 2 + R 1 2 * R 2 0) * s 4 / 2
      - (R 1 0 * R 2 1 + R 1 1 * R 2 0) * s 5 / 2) * h3
  · linear_combination (-(R 0 1 * R 2 2 + R 0 2 * R 2 1) * s 3 / 2 - (R 0 0 * R 2 2 + R 0 2 * R 2 0) * s 4 / 2
      - (R 0 0 * R 2 1 + R 0 1 * R 2 0) * s 5 / 2) * h3
  · linear_combination (-(R 0 1 * R 1 2 + R 0 2 * R 1 1) * s 3 / 2 - (R 0 0 * R 1 2 + R 0 2 * R 1 0) * s 4 / 2
      - (R 0 0 * R 1 1 + R 0 1 * R 1 0) * s 5 / 2) * h3

/-- The columns of the 6 × 6 matrix. -/
theorem mandelBasis_col (R : R2) (a : Fin 6) (i j : Fin 3) :
    ∑ c, mandelBasis R c a * basis c i j = ∑ m, ∑ n, R i m * R j n * basis a m n := by
  have h := congrFun (congrFun (mandelBasis_apply R (Pi.single a 1)) i) j
  rw [fullOfSym_basis, fullOfSym_basis, Matrix.sum_apply] at h
  simp only [Matrix.smul_apply, smul_eq_mul, Matrix.mulVec_single_one, Matrix.col_apply] at h
  rw [h]
  have e : (∑ b, (Pi.single a (1 : ℝ) : SR2) b • basis b) = basis a := by
    rw [Finset.sum_eq_single a]
    · simp
    · intro b _ hb; simp [hb]
    · simp
  rw [e]
  simp only [Matrix.mul_apply, transpose_apply, Finset.sum_mul]
  rw [Finset.sum_comm]
  exact Finset.sum_congr rfl fun m _ => Finset.sum_congr rfl fun n _ => by ring

/-- **C89** Rotating the 6 × 6 matrix of a fourth-order tensor rotates all four indices. -/
theorem C89_SSR4 (T : SSR4) (R : R2) (i j k l : Fin 3) :
    full4 (rotateSSR4 T R) i j k l =
      ∑ m, ∑ n, ∑ p, ∑ q, R i m * R j n * R k p * R l q * full4 T m n p q := by
  have lhs : full4 (rotateSSR4 T R) i j k l =
      ∑ a, ∑ b, T a b * (∑ c, mandelBasis R c a * basis c i j) * (∑ d, mandelBasis R d b * basis d k l) := by
    simp only [full4, rotateSSR4, Matrix.mul_apply, transpose_apply, Finset.sum_mul, Finset.mul_sum]
    -- c d b a  →  a b c d
    have e : ∀ f : Fin 6 → Fin 6 → Fin 6 → Fin 6 → ℝ,
        ∑ c, ∑ d, ∑ b, ∑ a, f c d b a = ∑ a, ∑ b, ∑ d, ∑ c, f c d b a := by
      intro f
      calc ∑ c, ∑ d, ∑ b, ∑ a, f c d b a = ∑ c, ∑ b, ∑ a, ∑ d, f c d b a :=
            Finset.sum_congr rfl fun c _ => by
              rw [Finset.sum_comm]
              exact Finset.sum_congr rfl fun b _ => Finset.sum_comm
        _ = ∑ b, ∑ c, ∑ a, ∑ d, f c d b a := Finset.sum_comm
        _ = ∑ b, ∑ a, ∑ c, ∑ d, f c d b a := Finset.sum_congr rfl fun b _ => Finset.sum_comm
        _ = ∑ a, ∑ b, ∑ c, ∑ d, f c d b a := Finset.sum_comm
        _ = ∑ a, ∑ b, ∑ d, ∑ c, f c d b a :=
            Finset.sum_congr rfl fun a _ => Finset.sum_congr rfl fun b _ => Finset.sum_comm
    rw [e]
    exact Finset.sum_congr rfl fun a _ => Finset.sum_congr rfl fun b _ => Finset.sum_congr rfl fun d _ =>
      Finset.sum_congr rfl fun c _ => by ring
  rw [lhs]
  simp only [mandelBasis_col, full4, Finset.mul_sum]
  have e1 : ∀ g : Fin 6 → Fin 6 → Fin 3 → ℝ, ∑ m, ∑ a, ∑ b, g a b m = ∑ a, ∑ b, ∑ m, g a b m := by
    intro g
    rw [Finset.sum_comm]
    exact Finset.sum_congr rfl fun a _ => Finset.sum_comm
  have e2 : ∀ g : Fin 6 → Fin 6 → Fin 3 → Fin 3 → ℝ,
      ∑ m, ∑ n, ∑ a, ∑ b, g a b m n = ∑ a, ∑ b, ∑ m, ∑ n, g a b m n := by
    intro g
    rw [Finset.sum_congr rfl fun m _ => e1 fun a b n => g a b m n, e1]
  rw [Finset.sum_congr rfl fun m _ => Finset.sum_congr rfl fun n _ => e2 _, e2]
  refine Finset.sum_congr rfl fun a _ => Finset.sum_congr rfl fun b _ => ?_
  simp only [Finset.mul_sum, Finset.sum_mul]
  have e3 : ∀ g : Fin 3 → Fin 3 → Fin 3 → Fin 3 → ℝ,
      ∑ p, ∑ q, ∑ m, ∑ n, g m n p q = ∑ m, ∑ n, ∑ p, ∑ q, g m n p q := by
    intro g
    calc ∑ p, ∑ q, ∑ m, ∑ n, g m n p q = ∑ p, ∑ m, ∑ q, ∑ n, g m n p q :=
          Finset.sum_congr rfl fun p _ => Finset.sum_comm
      _ = ∑ m, ∑ p, ∑ q, ∑ n, g m n p q := Finset.sum_comm
      _ = ∑ m, ∑ p, ∑ n, ∑ q, g m n p q :=
          Finset.sum_congr rfl fun m _ => Finset.sum_congr rfl fun p _ => Finset.sum_comm
      _ = ∑ m, ∑ n, ∑ p, ∑ q, g m n p q := Finset.sum_congr rfl fun m _ => Finset.sum_comm
  rw [e3]
  exact Finset.sum_congr rfl fun m _ => Finset.sum_congr rfl fun n _ => Finset.sum_congr rfl fun p _ =>
    Finset.sum_congr rfl fun q _ => by ring

/-- The 6 × 6 matrix of a product of matrices is the product of the 6 × 6 matrices. -/
theorem mandelBasis_mul (R S : R2) : mandelBasis (R * S) = mandelBasis R * mandelBasis S := by
  have key : ∀ s : SR2, (mandelBasis (R * S)).mulVec s = (mandelBasis R * mandelBasis S).mulVec s := by
    intro s
    rw [← C55_full_roundtrip ((mandelBasis (R * S)).mulVec s),
      ← C55_full_roundtrip ((mandelBasis R * mandelBasis S).mulVec s), mandelBasis_apply,
      ← Matrix.mulVec_mulVec, mandelBasis_apply, mandelBasis_apply, transpose_mul]
    simp only [Matrix.mul_assoc]
  ext a b
  have := congrFun (key (Pi.single b 1)) a
  simpa using this

theorem mandelBasis_one : mandelBasis 1 = 1 := by
  have key : ∀ s : SR2, (mandelBasis 1).mulVec s = s := by
    intro s
    rw [← C55_full_roundtrip ((mandelBasis 1).mulVec s), mandelBasis_apply]
    simp [C55_full_roundtrip]
  ext a b
  have := congrFun (key (Pi.single b 1)) a
  simpa [Matrix.one_apply, Pi.single_apply, eq_comm] using this

theorem mandelBasis_transpose (R : R2) : mandelBasis Rᵀ = (mandelBasis R)ᵀ := by
  ext a b
  fin_cases a <;> fin_cases b <;> simp [mandelBasis] <;> ring

/-- **C89** Two rotations in a row are one rotation by the product, for every kind of tensor. -/
theorem C89_compose (cuda : Bool) (s : SR2) (w : WR2) (a : R2) (T : SSR4) (v : Vec) (R S : R2) :
    rotateSym cuda (rotateSym cuda s R) S = rotateSym cuda s (S * R) ∧
      rotateSkew cuda (rotateSkew cuda w R) S = rotateSkew cuda w (S * R) ∧
      rotateR2 cuda (rotateR2 cuda a R) S = rotateR2 cuda a (S * R) ∧
      rotateSSR4 (rotateSSR4 T R) S = rotateSSR4 T (S * R) ∧
      rotateVec (rotateVec v R) S = rotateVec v (S * R) := by
  refine ⟨?_, ?_, ?_, ?_, ?_⟩
  · rw [← C55_full_roundtrip (rotateSym cuda (rotateSym cuda s R) S),
      ← C55_full_roundtrip (rotateSym cuda s (S * R)), C89_sym, C89_sym, C89_sym, transpose_mul]
    simp only [Matrix.mul_assoc]
  · rw [← C55_axial_roundtrip (rotateSkew cuda (rotateSkew cuda w R) S),
      ← C55_axial_roundtrip (rotateSkew cuda w (S * R)), C89_skew, C89_skew, C89_skew, transpose_mul]
    simp only [Matrix.mul_assoc]
  · rw [C89_R2, C89_R2, C89_R2, transpose_mul]
    simp only [Matrix.mul_assoc]
  · simp only [rotateSSR4, mandelBasis_mul, transpose_mul, Matrix.mul_assoc]
  · simp only [rotateVec, Matrix.mulVec_mulVec]

/-- **C89** An orthogonal matrix rotates without changing inner products, and rotating both factors of a
contraction rotates the result. -/
theorem C89_orthogonal (cuda : Bool) (a b : SR2) (C : SSR4) (R : R2) (ho : Rᵀ * R = 1) :
    innerSR2 (rotateSym cuda a R) (rotateSym cuda b R) = innerSR2 a b ∧
      tr (rotateSym cuda a R) = tr a ∧
      apply4 (rotateSSR4 C R) (rotateSym cuda a R) = rotateSym cuda (apply4 C a) R := by
  have hq : (mandelBasis R)ᵀ * mandelBasis R = 1 := by
    rw [← mandelBasis_transpose, ← mandelBasis_mul, ho, mandelBasis_one]
  have hr : ∀ s, rotateSym cuda s R = (mandelBasis R).mulVec s := by
    intro s
    rw [← C55_full_roundtrip (rotateSym cuda s R), C89_sym, ← mandelBasis_apply, C55_full_roundtrip]
  refine ⟨?_, ?_, ?_⟩
  · rw [C55_inner, C55_inner, C55_inner_trace, C55_inner_trace, C89_sym, C89_sym]
    rw [transpose_mul, transpose_mul, transpose_transpose]
    calc (R * fullOfSym a * Rᵀ * (R * ((fullOfSym b)ᵀ * Rᵀ))).trace
        = (R * (fullOfSym a * (Rᵀ * R) * (fullOfSym b)ᵀ * Rᵀ)).trace := by simp only [Matrix.mul_assoc]
      _ = ((fullOfSym a * (fullOfSym b)ᵀ) * (Rᵀ * R)).trace := by
          rw [ho, Matrix.trace_mul_comm]; simp only [Matrix.mul_assoc, Matrix.mul_one, ho]
      _ = (fullOfSym a * (fullOfSym b)ᵀ).trace := by rw [ho, Matrix.mul_one]
  · rw [C55_trace, C55_trace, C89_sym, Matrix.trace_mul_comm, ← Matrix.mul_assoc, ho, Matrix.one_mul]
  · rw [hr, hr]
    simp only [apply4, rotateSSR4, Matrix.mulVec_mulVec]
    rw [Matrix.mul_assoc, hq, Matrix.mul_one]

/-! ## Derivatives -/

/-- Specification: entry-wise derivative of a matrix-valued curve. -/
def DerivM {m n : Type} (F : ℝ → Matrix m n ℝ) (F' : Matrix m n ℝ) (t : ℝ) : Prop :=
  ∀ i j, HasDerivAt (fun τ => F τ i j) (F' i j) t

/-- Specification: component-wise derivative of a vector-valued curve. -/
def DerivV {n : Type} (f : ℝ → n → ℝ) (f' : n → ℝ) (t : ℝ) : Prop :=
  ∀ i, HasDerivAt (fun τ => f τ i) (f' i) t

theorem DerivM.const {m n : Type} (A : Matrix m n ℝ) (t : ℝ) : DerivM (fun _ => A) 0 t :=
  fun _ _ => hasDerivAt_const _ _

theorem DerivM.add {m n : Type} {F G : ℝ → Matrix m n ℝ} {F' G' : Matrix m n ℝ} {t : ℝ}
    (hF : DerivM F F' t) (hG : DerivM G G' t) : DerivM (fun τ => F τ + G τ) (F' + G') t :=
  fun i j => (hF i j).add (hG i j)

theorem DerivM.neg {m n : Type} {F : ℝ → Matrix m n ℝ} {F' : Matrix m n ℝ} {t : ℝ}
    (hF : DerivM F F' t) : DerivM (fun τ => -F τ) (-F') t :=
  fun i j => (hF i j).neg

theorem DerivM.transpose {m n : Type} {F : ℝ → Matrix m n ℝ} {F' : Matrix m n ℝ} {t : ℝ}
    (hF : DerivM F F' t) : DerivM (fun τ => (F τ)ᵀ) F'ᵀ t := fun i j => hF j i

theorem DerivM.mul {k m n : Type} [Fintype m] {F : ℝ → Matrix k m ℝ} {G : ℝ → Matrix m n ℝ}
    {F' : Matrix k m ℝ} {G' : Matrix m n ℝ} {t : ℝ} (hF : DerivM F F' t) (hG : DerivM G G' t) :
    DerivM (fun τ => F τ * G τ) (F' * G t + F t * G') t := by
  intro i j
  have h := HasDerivAt.fun_sum (u := Finset.univ) (fun k (_ : k ∈ Finset.univ) => (hF i k).mul (hG k j))
  refine (h.congr_deriv ?_).congr_of_eventuallyEq (Filter.Eventually.of_forall fun τ => ?_)
  · simp only [Matrix.add_apply, Matrix.mul_apply, ← Finset.sum_add_distrib]
  · simp only [Matrix.mul_apply, Pi.mul_apply]

theorem DerivM.sym {F : ℝ → R2} {F' : R2} {t : ℝ} (hF : DerivM F F' t) :
    DerivV (fun τ => Verif.Tensor.sym (F τ)) (Verif.Tensor.sym F') t := by
  intro i
  fin_cases i
  · exact hF 0 0
  · exact hF 1 1
  · exact hF 2 2
  · exact ((hF 1 2).add (hF 2 1)).mul_const _
  · exact ((hF 0 2).add (hF 2 0)).mul_const _
  · exact ((hF 0 1).add (hF 1 0)).mul_const _

theorem DerivM.skew {F : ℝ → R2} {F' : R2} {t : ℝ} (hF : DerivM F F' t) :
    DerivV (fun τ => Verif.Tensor.skew (F τ)) (Verif.Tensor.skew F') t := by
  intro i
  fin_cases i
  · exact ((hF 2 1).sub (hF 1 2)).div_const _
  · exact ((hF 0 2).sub (hF 2 0)).div_const _
  · exact ((hF 1 0).sub (hF 0 1)).div_const _

theorem DerivV.fullOfSym {f : ℝ → SR2} {f' : SR2} {t : ℝ} (hf : DerivV f f' t) :
    DerivM (fun τ => Verif.Tensor.fullOfSym (f τ)) (Verif.Tensor.fullOfSym f') t := by
  intro i j
  fin_cases i <;> fin_cases j <;>
    first
      | exact hf _
      | exact (hf _).mul_const _

theorem DerivV.fullOfSkew {f : ℝ → WR2} {f' : WR2} {t : ℝ} (hf : DerivV f f' t) :
    DerivM (fun τ => Verif.Tensor.fullOfSkew (f τ)) (Verif.Tensor.fullOfSkew f') t := by
  intro i j
  fin_cases i <;> fin_cases j <;>
    first
      | exact hasDerivAt_const _ _
      | exact hf _
      | exact (hf _).neg

/-- Derivative of the congruence `R X Rᵀ`. -/
theorem DerivM.congruence {F G : ℝ → R2} {F' G' : R2} {t : ℝ} (hF : DerivM F F' t) (hG : DerivM G G' t) :
    DerivM (fun τ => F τ * G τ * (F τ)ᵀ) (F t * G' * (F t)ᵀ + (F' * G t * (F t)ᵀ + F t * G t * F'ᵀ)) t := by
  have h := (hF.mul hG).mul hF.transpose
  have e : F t * G' * (F t)ᵀ + (F' * G t * (F t)ᵀ + F t * G t * F'ᵀ) =
      (F' * G t + F t * G') * (F t)ᵀ + F t * G t * F'ᵀ := by
    rw [Matrix.add_mul]; abel
  rw [e]; exact h

/-- **C90** Rotating a symmetric tensor: the derivative along curves of the tensor and the matrix is the
rotated tangent plus the code's directional derivative. -/
theorem C90_sym (cuda : Bool) {s : ℝ → SR2} {R : ℝ → R2} {ds : SR2} {dR : R2} {t : ℝ}
    (hs : DerivV s ds t) (hR : DerivM R dR t) :
    DerivV (fun τ => rotateSym cuda (s τ) (R τ)) (rotateSym cuda ds (R t) + jvpRotateSym cuda (s t) (R t) dR)
      t := by
  have h := (hR.congruence hs.fullOfSym).sym
  have e1 : (fun τ => rotateSym cuda (s τ) (R τ)) =
      fun τ => sym (R τ * fullOfSym (s τ) * (R τ)ᵀ) := by
    funext τ; simp only [rotateSym, (C55_matmul cuda _ _ 0).1]
  have e2 : ∀ A B : R2, sym (A + B) = sym A + sym B := by
    intro A B; ext i; fin_cases i <;> simp [sym] <;> ring
  rw [e1]
  simp only [e2] at h
  have e3 : rotateSym cuda ds (R t) + jvpRotateSym cuda (s t) (R t) dR =
      sym (R t * fullOfSym ds * (R t)ᵀ) +
        (sym (dR * fullOfSym (s t) * (R t)ᵀ) + sym (R t * fullOfSym (s t) * dRᵀ)) := by
    simp only [rotateSym, jvpRotateSym, (C55_matmul cuda _ _ 0).1, e2]
  rw [e3]; exact h

/-- **C90** The same for skew tensors. -/
theorem C90_skew (cuda : Bool) {w : ℝ → WR2} {R : ℝ → R2} {dw : WR2} {dR : R2} {t : ℝ}
    (hw : DerivV w dw t) (hR : DerivM R dR t) :
    DerivV (fun τ => rotateSkew cuda (w τ) (R τ))
      (rotateSkew cuda dw (R t) + jvpRotateSkew cuda (w t) (R t) dR) t := by
  have h := (hR.congruence hw.fullOfSkew).skew
  have e1 : (fun τ => rotateSkew cuda (w τ) (R τ)) =
      fun τ => skew (R τ * fullOfSkew (w τ) * (R τ)ᵀ) := by
    funext τ; simp only [rotateSkew, (C55_matmul cuda _ _ 0).1]
  have e2 : ∀ A B : R2, skew (A + B) = skew A + skew B := by
    intro A B; ext i; fin_cases i <;> simp [skew] <;> ring
  rw [e1]
  simp only [e2] at h
  have e3 : rotateSkew cuda dw (R t) + jvpRotateSkew cuda (w t) (R t) dR =
      skew (R t * fullOfSkew dw * (R t)ᵀ) +
        (skew (dR * fullOfSkew (w t) * (R t)ᵀ) + skew (R t * fullOfSkew (w t) * dRᵀ)) := by
    simp only [rotateSkew, jvpRotateSkew, (C55_matmul cuda _ _ 0).1, e2]
  rw [e3]; exact h

/-- **C90** The same for matrices. -/
theorem C90_R2 (cuda : Bool) {a R : ℝ → R2} {da dR : R2} {t : ℝ} (ha : DerivM a da t) (hR : DerivM R dR t) :
    DerivM (fun τ => rotateR2 cuda (a τ) (R τ)) (rotateR2 cuda da (R t) + jvpRotateR2 cuda (a t) (R t) dR) t := by
  have h := hR.congruence ha
  simp only [rotateR2, jvpRotateR2, (C55_matmul cuda _ _ 0).1]
  exact h

/-- The 6 × 6 matrix is a bilinear form on the diagonal. -/
theorem mandelBasis_eq (R : R2) : mandelBasis R = mandelBilinear R R := rfl

theorem DerivM.bilinear {A B : ℝ → R2} {A' B' : R2} {t : ℝ} (hA : DerivM A A' t) (hB : DerivM B B' t) :
    DerivM (fun τ => mandelBilinear (A τ) (B τ)) (mandelBilinear A' (B t) + mandelBilinear (A t) B') t := by
  intro i j
  have p : ∀ i j k l, HasDerivAt (fun τ => A τ i j * B τ k l) (A' i j * B t k l + A t i j * B' k l) t :=
    fun i j k l => (hA i j).mul (hB k l)
  have q : ∀ i j k l, HasDerivAt (fun τ => sq2 * A τ i j * B τ k l)
      (sq2 * A' i j * B t k l + sq2 * A t i j * B' k l) t :=
    fun i j k l => ((hA i j).const_mul sq2).mul (hB k l)
  have r : ∀ i j k l i' j' k' l', HasDerivAt (fun τ => A τ i j * B τ k l + A τ i' j' * B τ k' l')
      ((A' i j * B t k l + A' i' j' * B t k' l') + (A t i j * B' k l + A t i' j' * B' k' l')) t :=
    fun i j k l i' j' k' l' => ((p i j k l).add (p i' j' k' l')).congr_deriv (by ring)
  fin_cases i <;> fin_cases j <;>
    first
      | exact p _ _ _ _
      | exact q _ _ _ _
      | exact r _ _ _ _ _ _ _ _

/-- **C90** The same for fourth-order tensors. -/
theorem C90_SSR4 {T : ℝ → SSR4} {R : ℝ → R2} {dT : SSR4} {dR : R2} {t : ℝ} (hT : DerivM T dT t)
    (hR : DerivM R dR t) :
    DerivM (fun τ => rotateSSR4 (T τ) (R τ)) (rotateSSR4 dT (R t) + jvpRotateSSR4 (T t) (R t) dR) t := by
  have hQ := hR.bilinear hR
  have h := (hQ.mul hT).mul hQ.transpose
  have e : rotateSSR4 dT (R t) + jvpRotateSSR4 (T t) (R t) dR =
      ((mandelBilinear dR (R t) + mandelBilinear (R t) dR) * T t + mandelBilinear (R t) (R t) * dT) *
        (mandelBilinear (R t) (R t))ᵀ +
      mandelBilinear (R t) (R t) * T t * (mandelBilinear dR (R t) + mandelBilinear (R t) dR)ᵀ := by
    simp only [rotateSSR4, jvpRotateSSR4, mandelBasis_eq, Matrix.add_mul]
    rw [add_comm (mandelBilinear (R t) dR) (mandelBilinear dR (R t))]
    abel
  rw [e]
  exact h

end Verif.Tensor
