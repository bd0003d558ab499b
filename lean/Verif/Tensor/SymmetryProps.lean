import Verif.Tensor.Symmetry
import Verif.Tensor.RotationProps2
import Mathlib.NumberTheory.Zsqrtd.Basic
import Mathlib.Tactic.IntervalCases

/-! # Symmetry operators form rotation groups (C94) -/

set_option linter.unusedSimpArgs false

namespace Verif.Tensor

open Matrix

/-! ## Specification -/

/-- A list of matrices that is a group of `n` rotations without repetition. -/
structure IsRotationGroup (L : List R2) (n : Nat) : Prop where
  length : L.length = n
  rotations : ∀ A ∈ L, IsRotation A
  one_mem : 1 ∈ L
  mul_mem : ∀ A ∈ L, ∀ B ∈ L, A * B ∈ L
  inv_mem : ∀ A ∈ L, Aᵀ ∈ L
  nodup : L.Nodup

/-! ## Exact arithmetic in `ℤ√d` -/

/-- A quaternion with components in a ring. -/
abbrev Q4 (R : Type) := R × R × R × R

def qmul {R : Type} [CommRing R] (p q : Q4 R) : Q4 R :=
  (p.1 * q.1 - p.2.1 * q.2.1 - p.2.2.1 * q.2.2.1 - p.2.2.2 * q.2.2.2,
   p.1 * q.2.1 + p.2.1 * q.1 + p.2.2.1 * q.2.2.2 - p.2.2.2 * q.2.2.1,
   p.1 * q.2.2.1 - p.2.1 * q.2.2.2 + p.2.2.1 * q.1 + p.2.2.2 * q.2.1,
   p.1 * q.2.2.2 + p.2.1 * q.2.2.1 - p.2.2.1 * q.2.1 + p.2.2.2 * q.1)

def qconj {R : Type} [CommRing R] (p : Q4 R) : Q4 R := (p.1, -p.2.1, -p.2.2.1, -p.2.2.2)

def qscale {R : Type} [CommRing R] (k : R) (p : Q4 R) : Q4 R := (k * p.1, k * p.2.1, k * p.2.2.1, k * p.2.2.2)

def qnorm {R : Type} [CommRing R] (p : Q4 R) : R :=
  p.1 * p.1 + p.2.1 * p.2.1 + p.2.2.1 * p.2.2.1 + p.2.2.2 * p.2.2.2

/-- The nine entries of the homogeneous matrix. -/
def qentries {R : Type} [CommRing R] (p : Q4 R) : List R :=
  let w := p.1
  let x := p.2.1
  let y := p.2.2.1
  let z := p.2.2.2
  [w * w + x * x - y * y - z * z, 2 * (x * y - z * w), 2 * (x * z + y * w),
   2 * (x * y + z * w), w * w - x * x + y * y - z * z, 2 * (y * z - x * w),
   2 * (x * z - y * w), 2 * (y * z + x * w), w * w - x * x - y * y + z * z]

def qmap {R S : Type} [CommRing R] [CommRing S] (f : R →+* S) (p : Q4 R) : Q4 S := (f p.1, f p.2.1, f p.2.2.1, f p.2.2.2)

theorem qmap_entries {R S : Type} [CommRing R] [CommRing S] (f : R →+* S) (p : Q4 R) :
    qentries (qmap f p) = (qentries p).map f := by
  have h2 : f 2 = 2 := map_ofNat f 2
  simp [qentries, qmap, h2]

theorem qmap_mul {R S : Type} [CommRing R] [CommRing S] (f : R →+* S) (p q : Q4 R) :
    qmap f (qmul p q) = qmul (qmap f p) (qmap f q) := by
  simp [qmul, qmap]

theorem qmap_conj {R S : Type} [CommRing R] [CommRing S] (f : R →+* S) (p : Q4 R) :
    qmap f (qconj p) = qconj (qmap f p) := by
  simp [qconj, qmap]

theorem qmap_scale {R S : Type} [CommRing R] [CommRing S] (f : R →+* S) (k : R) (p : Q4 R) :
    qmap f (qscale k p) = qscale (f k) (qmap f p) := by
  simp [qscale, qmap]

theorem qmap_norm {R S : Type} [CommRing R] [CommRing S] (f : R →+* S) (p : Q4 R) :
    qnorm (qmap f p) = f (qnorm p) := by
  simp [qnorm, qmap]

/-- What is checked on a table of doubled quaternions: unit length, the identity, closure and inverses up to
sign, and distinct matrices. -/
def tableOk {R : Type} [CommRing R] [DecidableEq R] (T : List (Q4 R)) : Bool :=
  T.all (fun p => decide (qnorm p = 4)) &&
  decide ((2, 0, 0, 0) ∈ T) &&
  T.all (fun p => T.all fun q => decide (∃ r ∈ T, qmul p q = qscale 2 r ∨ qmul p q = qscale (-2) r)) &&
  T.all (fun p => decide (∃ r ∈ T, qconj p = r ∨ qconj p = qscale (-1) r)) &&
  decide ((T.map qentries).Nodup)

/-- The real quaternion of a doubled one. -/
noncomputable def half (p : Q4 ℝ) : Quat := ![p.1 / 2, p.2.1 / 2, p.2.2.1 / 2, p.2.2.2 / 2]

noncomputable def homQ (p : Q4 ℝ) : R2 := hom p.1 p.2.1 p.2.2.1 p.2.2.2

theorem homQ_mul (p q : Q4 ℝ) : homQ p * homQ q = homQ (qmul p q) := hom_mul _ _ _ _ _ _ _ _

theorem homQ_conj (p : Q4 ℝ) : (homQ p)ᵀ = homQ (qconj p) := hom_transpose _ _ _ _

theorem homQ_scale (k : ℝ) (p : Q4 ℝ) : homQ (qscale k p) = (k * k) • homQ p := hom_smul _ _ _ _ _

theorem homQ_inj {p q : Q4 ℝ} (h : homQ p = homQ q) : qentries p = qentries q := by
  have e := fun i j => congrFun (congrFun h i) j
  have e00 := e 0 0
  have e01 := e 0 1
  have e02 := e 0 2
  have e10 := e 1 0
  have e11 := e 1 1
  have e12 := e 1 2
  have e20 := e 2 0
  have e21 := e 2 1
  have e22 := e 2 2
  simp only [homQ, hom, Matrix.cons_val', Matrix.cons_val_zero, Matrix.cons_val_one, Matrix.cons_val,
    Matrix.of_apply] at e00 e01 e02 e10 e11 e12 e20 e21 e22
  simp only [qentries, e00, e01, e02, e10, e11, e12, e20, e21, e22]

theorem quatMatrix_half (p : Q4 ℝ) (hp : qnorm p = 4) : quatMatrix (half p) = (1 / 4 : ℝ) • homQ p := by
  have hq : half p 0 ^ 2 + half p 1 ^ 2 + half p 2 ^ 2 + half p 3 ^ 2 = 1 := by
    simp [half]
    unfold qnorm at hp
    linear_combination hp / 4
  rw [quat_hom _ hq]
  ext i j
  fin_cases i <;> fin_cases j <;> simp [hom, homQ, half] <;> ring

/-- A checked table gives a rotation group. -/
theorem group_of_table {R : Type} [CommRing R] [DecidableEq R] (f : R →+* ℝ) (hf : Function.Injective f)
    (T : List (Q4 R)) (h : tableOk T = true) :
    IsRotationGroup ((T.map fun p => half (qmap f p)).map quatMatrix) T.length := by
  unfold tableOk at h
  simp only [Bool.and_eq_true, List.all_eq_true, decide_eq_true_eq] at h
  obtain ⟨⟨⟨⟨hn, h1⟩, hm⟩, hi⟩, hd⟩ := h
  have hf2 : f 2 = 2 := map_ofNat f 2
  have hnorm : ∀ p ∈ T, qnorm (qmap f p) = 4 := by
    intro p hp
    rw [qmap_norm, hn p hp]; exact map_ofNat f 4
  have key : ∀ p ∈ T, quatMatrix (half (qmap f p)) = (1 / 4 : ℝ) • homQ (qmap f p) := fun p hp =>
    quatMatrix_half _ (hnorm p hp)
  have memL : ∀ {A : R2}, A ∈ (T.map fun p => half (qmap f p)).map quatMatrix ↔
      ∃ p ∈ T, A = (1 / 4 : ℝ) • homQ (qmap f p) := by
    intro A
    simp only [List.map_map, List.mem_map, Function.comp_apply]
    constructor
    · rintro ⟨p, hp, rfl⟩; exact ⟨p, hp, key p hp⟩
    · rintro ⟨p, hp, rfl⟩; exact ⟨p, hp, key p hp⟩
  refine ⟨by simp, ?_, ?_, ?_, ?_, ?_⟩
  · intro A hA
    obtain ⟨p, hp, rfl⟩ := memL.mp hA
    rw [← key p hp]
    refine C56_quat _ ?_
    have := hnorm p hp
    unfold qnorm at this
    simp [half]
    linear_combination this / 4
  · refine memL.mpr ⟨_, h1, ?_⟩
    simp only [homQ, qmap, map_zero]
    rw [hom_real, smul_smul, hf2]
    norm_num
  · intro A hA B hB
    obtain ⟨p, hp, rfl⟩ := memL.mp hA
    obtain ⟨q, hq, rfl⟩ := memL.mp hB
    obtain ⟨r, hr, hpq⟩ := hm p hp q hq
    refine memL.mpr ⟨r, hr, ?_⟩
    rw [Matrix.smul_mul, Matrix.mul_smul, homQ_mul, ← qmap_mul]
    rcases hpq with e | e <;> rw [e, qmap_scale, homQ_scale, smul_smul, smul_smul] <;> congr 1 <;>
      simp [hf2] <;> norm_num
  · intro A hA
    obtain ⟨p, hp, rfl⟩ := memL.mp hA
    obtain ⟨r, hr, hpr⟩ := hi p hp
    refine memL.mpr ⟨r, hr, ?_⟩
    rw [Matrix.transpose_smul, homQ_conj, ← qmap_conj]
    rcases hpr with e | e <;> rw [e]
    rw [qmap_scale, homQ_scale]; simp
  · have hnd : T.Nodup := List.Nodup.of_map _ hd
    rw [List.map_map]
    refine List.Nodup.map_on ?_ hnd
    intro p hp q hq e
    simp only [Function.comp_apply] at e
    rw [key p hp, key q hq] at e
    have e' : homQ (qmap f p) = homQ (qmap f q) := by
      have := congrArg (fun M => (4 : ℝ) • M) e
      simp only [smul_smul] at this
      norm_num at this
      exact this
    have h2 := homQ_inj e'
    rw [qmap_entries, qmap_entries] at h2
    have h3 := List.map_injective_iff.mpr hf h2
    exact List.inj_on_of_nodup_map hd hp hq h3

/-! ## The tables -/

/-- `√2` in `ℤ√2`. -/
def s2 : ℤ√2 := ⟨0, 1⟩
/-- `√3` in `ℤ√3`. -/
def s3 : ℤ√3 := ⟨0, 1⟩

/-- The doubled tetragonal table. -/
def tetragonalZ : List (Q4 (ℤ√2)) :=
  [(2, 0, 0, 0), (0, 0, 2, 0), (0, 2, 0, 0), (0, 0, 0, 2), (s2, 0, 0, -s2), (s2, 0, 0, s2), (0, s2, s2, 0),
   (0, -s2, s2, 0)]

/-- The doubled hexagonal table. -/
def hexagonalZ : List (Q4 (ℤ√3)) :=
  [(2, 0, 0, 0), (-1, 0, 0, s3), (1, 0, 0, s3), (s3, 0, 0, -1), (0, 0, 0, 2), (s3, 0, 0, 1), (0, -1, s3, 0),
   (0, 2, 0, 0), (0, 1, s3, 0), (0, s3, 1, 0), (0, 0, 2, 0), (0, s3, -1, 0)]

/-- The doubled cubic table. -/
def cubicZ : List (Q4 (ℤ√2)) :=
  [(2, 0, 0, 0), (1, 1, 1, 1), (-1, 1, 1, 1), (1, -1, 1, 1), (1, 1, -1, 1), (-1, -1, -1, 1), (1, -1, -1, 1),
   (-1, -1, 1, 1), (-1, 1, -1, 1), (0, 0, 2, 0), (0, 0, 0, 2), (0, 2, 0, 0), (0, -s2, 0, s2), (0, s2, 0, s2),
   (s2, 0, s2, 0), (s2, 0, -s2, 0), (0, 0, -s2, s2), (s2, s2, 0, 0), (s2, -s2, 0, 0), (0, 0, s2, s2),
   (0, -s2, s2, 0), (s2, 0, 0, -s2), (0, s2, s2, 0), (s2, 0, 0, s2)]

/-- The embedding of `ℤ√2` into the reals. -/
noncomputable def f2 : ℤ√2 →+* ℝ :=
  Zsqrtd.lift ⟨Real.sqrt 2, by rw [Real.mul_self_sqrt (by norm_num)]; norm_num⟩

/-- The embedding of `ℤ√3` into the reals. -/
noncomputable def f3 : ℤ√3 →+* ℝ :=
  Zsqrtd.lift ⟨Real.sqrt 3, by rw [Real.mul_self_sqrt (by norm_num)]; norm_num⟩

theorem not_square_two (n : ℤ) : (2 : ℤ) ≠ n * n := by
  intro h
  have h1 : n < 2 := by nlinarith
  have h2 : -2 < n := by nlinarith
  interval_cases n <;> omega

theorem not_square_three (n : ℤ) : (3 : ℤ) ≠ n * n := by
  intro h
  have h1 : n < 2 := by nlinarith
  have h2 : -2 < n := by nlinarith
  interval_cases n <;> omega

theorem f2_injective : Function.Injective f2 := Zsqrtd.lift_injective _ not_square_two
theorem f3_injective : Function.Injective f3 := Zsqrtd.lift_injective _ not_square_three

theorem f2_s2 : f2 s2 = Real.sqrt 2 := by simp [f2, s2, Zsqrtd.lift]
theorem f3_s3 : f3 s3 = Real.sqrt 3 := by simp [f3, s3, Zsqrtd.lift]

theorem qA_eq : qA = Real.sqrt 2 / 2 := by
  have h : Real.sqrt 2 * Real.sqrt 2 = 2 := Real.mul_self_sqrt (by norm_num)
  have h0 : Real.sqrt 2 ≠ 0 := by positivity
  unfold qA
  field_simp
  linarith

theorem tetragonal_eq : tetragonal = tetragonalZ.map fun p => half (qmap f2 p) := by
  have h2 : f2 2 = 2 := map_ofNat f2 2
  simp only [tetragonal, tetragonalZ, List.map, half, qmap, map_zero, map_neg, f2_s2, h2, qA_eq]
  norm_num [neg_div]

theorem hexagonal_eq : hexagonal = hexagonalZ.map fun p => half (qmap f3 p) := by
  have h2 : f3 2 = 2 := map_ofNat f3 2
  simp only [hexagonal, hexagonalZ, List.map, half, qmap, map_zero, map_one, map_neg, f3_s3, h2, qB, qH]
  norm_num

theorem cubic_eq : cubic = cubicZ.map fun p => half (qmap f2 p) := by
  have h2 : f2 2 = 2 := map_ofNat f2 2
  simp only [cubic, cubicZ, List.map, half, qmap, map_zero, map_one, map_neg, f2_s2, h2, qA_eq, qH]
  norm_num [neg_div]

theorem slice_map {α β : Type} (g : α → β) (x : List α) (a b : Nat) : slice (x.map g) a b = (slice x a b).map g := by
  simp [slice, List.map_take, List.map_drop]

theorem ok_cubic : tableOk cubicZ = true := by decide +kernel
theorem ok_23 : tableOk (slice cubicZ 0 12) = true := by decide +kernel
theorem ok_622 : tableOk hexagonalZ = true := by decide +kernel
theorem ok_32 : tableOk (slice hexagonalZ 0 3 ++ slice hexagonalZ 9 12) = true := by decide +kernel
theorem ok_6 : tableOk (slice hexagonalZ 0 6) = true := by decide +kernel
theorem ok_3 : tableOk (slice hexagonalZ 0 3) = true := by decide +kernel
theorem ok_42 : tableOk tetragonalZ = true := by decide +kernel
theorem ok_4 : tableOk (slice tetragonalZ 0 1 ++ slice tetragonalZ 3 6) = true := by decide +kernel
theorem ok_222 : tableOk (slice tetragonalZ 0 4) = true := by decide +kernel
theorem ok_2 : tableOk (slice tetragonalZ 0 2) = true := by decide +kernel
theorem ok_1 : tableOk (slice tetragonalZ 0 1) = true := by decide +kernel

/-! ## The claim -/

/-- Rotation by 90° about `z`. -/
def rotZ90 : R2 := !![0, -1, 0; 1, 0, 0; 0, 0, 1]
/-- Rotation by 60° about `z`. -/
noncomputable def rotZ60 : R2 := !![1 / 2, -(Real.sqrt 3 / 2), 0; Real.sqrt 3 / 2, 1 / 2, 0; 0, 0, 1]
/-- Rotation by 120° about `z`. -/
noncomputable def rotZ120 : R2 := !![-1 / 2, -(Real.sqrt 3 / 2), 0; Real.sqrt 3 / 2, -1 / 2, 0; 0, 0, 1]
/-- Half turns about the axes. -/
def rotX180 : R2 := !![1, 0, 0; 0, -1, 0; 0, 0, -1]
def rotY180 : R2 := !![-1, 0, 0; 0, 1, 0; 0, 0, -1]
def rotZ180 : R2 := !![-1, 0, 0; 0, -1, 0; 0, 0, 1]
/-- Rotation by 120° about `[111]`. -/
def rotCube : R2 := !![0, 0, 1; 1, 0, 0; 0, 1, 0]

/-- The supported crystal classes with their order and generators. -/
noncomputable def classes : List (String × Nat × List R2) :=
  [("432", 24, [rotZ90, rotCube]), ("23", 12, [rotX180, rotZ180, rotCube]), ("622", 12, [rotZ60, rotX180]),
   ("32", 6, [rotZ120, rotY180]), ("6", 6, [rotZ60]), ("3", 3, [rotZ120]), ("42", 8, [rotZ90, rotX180]),
   ("4", 4, [rotZ90]), ("222", 4, [rotX180, rotY180]), ("2", 2, [rotY180]), ("1", 1, [])]

theorem sqrt2_mul : Real.sqrt 2 * Real.sqrt 2 = 2 := Real.mul_self_sqrt (by norm_num)
theorem sqrt3_mul : Real.sqrt 3 * Real.sqrt 3 = 3 := Real.mul_self_sqrt (by norm_num)

theorem m_z90 : quatMatrix ![qA, 0, 0, qA] = rotZ90 := by
  rw [qA_eq]; have := sqrt2_mul
  ext i j; fin_cases i <;> fin_cases j <;> simp [quatMatrix, rotZ90] <;> linarith
theorem m_cube : quatMatrix ![qH, qH, qH, qH] = rotCube := by
  ext i j; fin_cases i <;> fin_cases j <;> simp [quatMatrix, rotCube, qH] <;> norm_num
theorem m_x180 : quatMatrix ![0, 1, 0, 0] = rotX180 := by
  ext i j; fin_cases i <;> fin_cases j <;> simp [quatMatrix, rotX180] <;> norm_num
theorem m_y180 : quatMatrix ![0, 0, 1, 0] = rotY180 := by
  ext i j; fin_cases i <;> fin_cases j <;> simp [quatMatrix, rotY180] <;> norm_num
theorem m_z180 : quatMatrix ![0, 0, 0, 1] = rotZ180 := by
  ext i j; fin_cases i <;> fin_cases j <;> simp [quatMatrix, rotZ180] <;> norm_num
theorem m_z60 : quatMatrix ![qB, 0, 0, qH] = rotZ60 := by
  have := sqrt3_mul
  ext i j; fin_cases i <;> fin_cases j <;> simp [quatMatrix, rotZ60, qB, qH] <;> linarith
theorem m_z120 : quatMatrix ![qH, 0, 0, qB] = rotZ120 := by
  have := sqrt3_mul
  ext i j; fin_cases i <;> fin_cases j <;> simp [quatMatrix, rotZ120, qB, qH] <;> linarith

theorem symmetry_group {R : Type} [CommRing R] [DecidableEq R] (f : R →+* ℝ) (hf : Function.Injective f)
    (T : List (Q4 R)) (h : tableOk T = true) (L : List Quat) (hL : L = T.map fun p => half (qmap f p)) (n : Nat)
    (hn : T.length = n) : IsRotationGroup (L.map quatMatrix) n := by
  rw [hL, ← hn]; exact group_of_table f hf T h

/-- **C94** For every supported crystal class the operators are a group of rotations of the right order, without
repetition, that contains the generators of the class. -/
theorem C94_groups (o : String) (n : Nat) (gens : List R2) (h : (o, n, gens) ∈ classes) :
    ∃ L, symmetry o = some L ∧ IsRotationGroup L n ∧ ∀ g ∈ gens, g ∈ L := by
  have mem : ∀ {L : List Quat} {q : Quat} {g : R2}, quatMatrix q = g → q ∈ L → g ∈ L.map quatMatrix :=
    fun e m => List.mem_map.mpr ⟨_, m, e⟩
  simp only [classes, List.mem_cons, Prod.mk.injEq, List.not_mem_nil, or_false] at h
  rcases h with ⟨rfl, rfl, rfl⟩ | ⟨rfl, rfl, rfl⟩ | ⟨rfl, rfl, rfl⟩ | ⟨rfl, rfl, rfl⟩ | ⟨rfl, rfl, rfl⟩ |
    ⟨rfl, rfl, rfl⟩ | ⟨rfl, rfl, rfl⟩ | ⟨rfl, rfl, rfl⟩ | ⟨rfl, rfl, rfl⟩ | ⟨rfl, rfl, rfl⟩ | ⟨rfl, rfl, rfl⟩
  · refine ⟨_, rfl, symmetry_group f2 f2_injective _ ok_cubic _ cubic_eq _ rfl, ?_⟩
    intro g hg
    simp only [List.mem_cons, List.not_mem_nil, or_false] at hg
    rcases hg with rfl | rfl
    · exact mem m_z90 (by simp [cubic])
    · exact mem m_cube (by simp [cubic])
  · refine ⟨_, rfl, symmetry_group f2 f2_injective _ ok_23 _ (by rw [cubic_eq, slice_map]) _ rfl, ?_⟩
    intro g hg
    simp only [List.mem_cons, List.not_mem_nil, or_false] at hg
    rcases hg with rfl | rfl | rfl
    · exact mem m_x180 (by simp [cubic, slice])
    · exact mem m_z180 (by simp [cubic, slice])
    · exact mem m_cube (by simp [cubic, slice])
  · refine ⟨_, rfl, symmetry_group f3 f3_injective _ ok_622 _ hexagonal_eq _ rfl, ?_⟩
    intro g hg
    simp only [List.mem_cons, List.not_mem_nil, or_false] at hg
    rcases hg with rfl | rfl
    · exact mem m_z60 (by simp [hexagonal])
    · exact mem m_x180 (by simp [hexagonal])
  · refine ⟨_, rfl, symmetry_group f3 f3_injective _ ok_32 _
      (by rw [hexagonal_eq, slice_map, slice_map, List.map_append]) _ rfl, ?_⟩
    intro g hg
    simp only [List.mem_cons, List.not_mem_nil, or_false] at hg
    rcases hg with rfl | rfl
    · exact mem m_z120 (by simp [hexagonal, slice])
    · exact mem m_y180 (by simp [hexagonal, slice])
  · refine ⟨_, rfl, symmetry_group f3 f3_injective _ ok_6 _ (by rw [hexagonal_eq, slice_map]) _ rfl, ?_⟩
    intro g hg
    simp only [List.mem_cons, List.not_mem_nil, or_false] at hg
    rcases hg with rfl
    exact mem m_z60 (by simp [hexagonal, slice])
  · refine ⟨_, rfl, symmetry_group f3 f3_injective _ ok_3 _ (by rw [hexagonal_eq, slice_map]) _ rfl, ?_⟩
    intro g hg
    simp only [List.mem_cons, List.not_mem_nil, or_false] at hg
    rcases hg with rfl
    exact mem m_z120 (by simp [hexagonal, slice])
  · refine ⟨_, rfl, symmetry_group f2 f2_injective _ ok_42 _ tetragonal_eq _ rfl, ?_⟩
    intro g hg
    simp only [List.mem_cons, List.not_mem_nil, or_false] at hg
    rcases hg with rfl | rfl
    · exact mem m_z90 (by simp [tetragonal])
    · exact mem m_x180 (by simp [tetragonal])
  · refine ⟨_, rfl, symmetry_group f2 f2_injective _ ok_4 _
      (by rw [tetragonal_eq, slice_map, slice_map, List.map_append]) _ rfl, ?_⟩
    intro g hg
    simp only [List.mem_cons, List.not_mem_nil, or_false] at hg
    rcases hg with rfl
    exact mem m_z90 (by simp [tetragonal, slice])
  · refine ⟨_, rfl, symmetry_group f2 f2_injective _ ok_222 _ (by rw [tetragonal_eq, slice_map]) _ rfl, ?_⟩
    intro g hg
    simp only [List.mem_cons, List.not_mem_nil, or_false] at hg
    rcases hg with rfl | rfl
    · exact mem m_x180 (by simp [tetragonal, slice])
    · exact mem m_y180 (by simp [tetragonal, slice])
  · refine ⟨_, rfl, symmetry_group f2 f2_injective _ ok_2 _ (by rw [tetragonal_eq, slice_map]) _ rfl, ?_⟩
    intro g hg
    simp only [List.mem_cons, List.not_mem_nil, or_false] at hg
    rcases hg with rfl
    exact mem m_y180 (by simp [tetragonal, slice])
  · refine ⟨_, rfl, symmetry_group f2 f2_injective _ ok_1 _ (by rw [tetragonal_eq, slice_map]) _ rfl, ?_⟩
    intro g hg
    simp at hg

/-- **C94** Any other class name is an error. -/
theorem C94_unknown (o : String) (h : ∀ n gens, (o, n, gens) ∉ classes) : symmetry o = none := by
  have hne : o ≠ "432" ∧ o ≠ "23" ∧ o ≠ "622" ∧ o ≠ "32" ∧ o ≠ "6" ∧ o ≠ "3" ∧ o ≠ "42" ∧ o ≠ "4" ∧ o ≠ "222" ∧
      o ≠ "2" ∧ o ≠ "1" := by
    refine ⟨?_, ?_, ?_, ?_, ?_, ?_, ?_, ?_, ?_, ?_, ?_⟩ <;> rintro rfl <;>
      simp [classes, forall_and] at h
  obtain ⟨h1, h2, h3, h4, h5, h6, h7, h8, h9, h10, h11⟩ := hne
  simp [symmetry, operators, h1, h2, h3, h4, h5, h6, h7, h8, h9, h10, h11]

/-- **C94** The operators a cubic crystal uses are the operators of the class 432, in the same order. -/
theorem C94_cubic_crystal : symmetry "432" = some cubicSymmetryOperators := by
  have hq : quaternionToR = quatMatrix := by
    funext q
    ext i j; fin_cases i <;> fin_cases j <;> simp [quatMatrix, quaternionToR] <;> ring
  have ht : cubicQuaternions = cubic := by
    unfold cubicQuaternions cubic
    rw [qA_eq]
  unfold cubicSymmetryOperators
  rw [hq, ht]
  rfl

end Verif.Tensor
