import Verif.Geom.Spec
import Mathlib.LinearAlgebra.Matrix.Adjugate
import Mathlib.Tactic.FinCases
import Mathlib.Tactic.FieldSimp
import Mathlib.Tactic.Module
import Mathlib.Tactic.NoncommRing
import Mathlib.Tactic.LinearCombination
import Mathlib.Tactic.Linarith
/-! # Vectors and matrices: property C104 -/

namespace Umka.Geom.Props
open Umka.Geom Umka.Geom.Spec
open scoped Matrix

theorem mulm_apply (m n : Mat) (i j : Fin 3) : Mat.mulm m n i j = m i 0 * n 0 j + m i 1 * n 1 j + m i 2 * n 2 j := by
  fin_cases i <;> fin_cases j <;> simp [Mat.mulm, loop, set, zero]

theorem mulm_eq (m n : Mat) : mat (Mat.mulm m n) = mat m * mat n := by
  ext i j
  simp [mat, Matrix.mul_apply, Fin.sum_univ_three, mulm_apply]

theorem identity_eq : mat identity = 1 := by
  ext i j
  fin_cases i <;> fin_cases j <;> simp [mat, identity, loop, set, zero]

theorem transpose_eq (m : Mat) : mat (Mat.transpose m) = (mat m)ᵀ := by
  ext i j
  fin_cases i <;> fin_cases j <;> simp [mat, Mat.transpose, loop, set]

/-- **C104.**  The operations on vectors are the usual ones; division by zero is an error. -/
theorem C104_vectors (u v : Vec) (a : ℝ) :
    Vec.add u v = u + v ∧ Vec.sub u v = u - v ∧ Vec.mul u a = a • u ∧ (a ≠ 0 → Vec.div u a = some (a⁻¹ • u)) ∧ Vec.div u 0 = none ∧
    Vec.dot u v = u ⬝ᵥ v ∧ Vec.cross u v = crossProduct u v ∧ Vec.elementwise u v = u * v ∧ Vec.norm u = Real.sqrt (u ⬝ᵥ u) := by
  refine ⟨?_, ?_, ?_, ?_, ?_, ?_, ?_, ?_, ?_⟩
  · ext i; fin_cases i <;> simp [Vec.add]
  · ext i; fin_cases i <;> simp [Vec.sub]
  · ext i; fin_cases i <;> simp [Vec.mul, mul_comm]
  · intro ha
    rw [Vec.div, if_neg ha]
    congr 1
    ext i; fin_cases i <;> simp [div_eq_inv_mul]
  · simp [Vec.div]
  · simp [Vec.dot, dotProduct, Fin.sum_univ_three]
  · rw [cross_apply]; rfl
  · ext i; fin_cases i <;> simp [Vec.elementwise]
  · simp [Vec.norm, Vec.dot, dotProduct, Fin.sum_univ_three]

/-- **C104.**  A normalized vector has length 1 and the direction of the vector; only the zero vector cannot be normalized. -/
theorem C104_normalized (v : Vec) :
    (v = 0 → Vec.normalize v = none) ∧
    (v ≠ 0 → ∃ w, Vec.normalize v = some w ∧ w ⬝ᵥ w = 1 ∧ ∃ a : ℝ, 0 < a ∧ v = a • w) := by
  have hd : Vec.dot v v = v 0 * v 0 + v 1 * v 1 + v 2 * v 2 := rfl
  constructor
  · rintro rfl
    simp [Vec.normalize, Vec.div, Vec.norm, Vec.dot]
  · intro hv
    have hp : 0 < Vec.dot v v := by
      rcases lt_or_eq_of_le (show 0 ≤ Vec.dot v v by rw [hd]; exact add_nonneg (add_nonneg (mul_self_nonneg _) (mul_self_nonneg _)) (mul_self_nonneg _)) with h | h
      · exact h
      · exfalso
        apply hv
        rw [hd] at h
        ext i
        fin_cases i <;> simp <;> nlinarith [mul_self_nonneg (v 0), mul_self_nonneg (v 1), mul_self_nonneg (v 2)]
    have hn : 0 < Vec.norm v := Real.sqrt_pos.mpr hp
    have hs : Vec.norm v * Vec.norm v = Vec.dot v v := Real.mul_self_sqrt hp.le
    have h1 : Vec.normalize v = some ((Vec.norm v)⁻¹ • v) := (C104_vectors v v (Vec.norm v)).2.2.2.1 hn.ne'
    refine ⟨_, h1, ?_, Vec.norm v, hn, ?_⟩
    · have : v ⬝ᵥ v = Vec.norm v * Vec.norm v := by rw [hs]; exact ((C104_vectors v v 0).2.2.2.2.2.1).symm
      rw [smul_dotProduct, dotProduct_smul, this]
      simp only [smul_eq_mul]
      field_simp
    · rw [smul_smul, mul_inv_cancel₀ hn.ne', one_smul]

/-- **C104.**  The operations on matrices are the usual ones. -/
theorem C104_matrices (m n : Mat) (a : ℝ) (v : Vec) :
    mat (Mat.add m n) = mat m + mat n ∧ mat (Mat.sub m n) = mat m - mat n ∧ mat (Mat.mul m a) = a • mat m ∧
    (a ≠ 0 → (Mat.div m a).map mat = some (a⁻¹ • mat m)) ∧ Mat.div m 0 = none ∧ Mat.mulv m v = mat m *ᵥ v ∧ mat (Mat.mulm m n) = mat m * mat n ∧
    mat identity = 1 ∧ mat (Mat.transpose m) = (mat m)ᵀ := by
  refine ⟨?_, ?_, ?_, ?_, ?_, ?_, mulm_eq m n, identity_eq, transpose_eq m⟩
  · ext i j; fin_cases i <;> fin_cases j <;> simp [mat, Mat.add, Vec.add]
  · ext i j; fin_cases i <;> fin_cases j <;> simp [mat, Mat.sub, Vec.sub]
  · ext i j; fin_cases i <;> fin_cases j <;> simp [mat, Mat.mul, Vec.mul, mul_comm]
  · intro ha
    simp only [Mat.div, Vec.div, if_neg ha, Option.bind_eq_bind, Option.bind_some, Option.map_some]
    congr 1
    ext i j; fin_cases i <;> fin_cases j <;> simp [mat, div_eq_inv_mul]
  · simp [Mat.div, Vec.div]
  · ext i; fin_cases i <;> simp [Mat.mulv, Vec.dot, mat, Matrix.mulVec, dotProduct, Fin.sum_univ_three]

/-- **C104.**  `toRateMat` is skew-symmetric and multiplies like the cross product. -/
theorem C104_rate (v u : Vec) : (mat (toRateMat v))ᵀ = -mat (toRateMat v) ∧ Mat.mulv (toRateMat v) u = crossProduct v u := by
  constructor
  · ext i j; fin_cases i <;> fin_cases j <;> simp [mat, toRateMat]
  · rw [cross_apply]
    ext i; fin_cases i <;> simp [Mat.mulv, Vec.dot, toRateMat] <;> ring

/-- The three rotations of the attitude matrix. -/
noncomputable def matX (a : ℝ) : Matrix (Fin 3) (Fin 3) ℝ := !![1, 0, 0; 0, Real.cos a, -Real.sin a; 0, Real.sin a, Real.cos a]
noncomputable def matY (a : ℝ) : Matrix (Fin 3) (Fin 3) ℝ := !![Real.cos a, 0, Real.sin a; 0, 1, 0; -Real.sin a, 0, Real.cos a]
noncomputable def matZ (a : ℝ) : Matrix (Fin 3) (Fin 3) ℝ := !![Real.cos a, -Real.sin a, 0; Real.sin a, Real.cos a, 0; 0, 0, 1]

theorem toAttMat_eq (v : Vec) : mat (toAttMat v) = matZ (v 2) * matY (v 1) * matX (v 0) := by
  unfold toAttMat
  rw [mulm_eq, mulm_eq]
  rfl

theorem matX_orth (a : ℝ) : (matX a)ᵀ * matX a = 1 := by
  have h := Real.sin_sq_add_cos_sq a
  ext i j
  fin_cases i <;> fin_cases j <;> simp [matX, Matrix.mul_apply, Fin.sum_univ_three] <;> first | linear_combination h | ring

theorem matY_orth (a : ℝ) : (matY a)ᵀ * matY a = 1 := by
  have h := Real.sin_sq_add_cos_sq a
  ext i j
  fin_cases i <;> fin_cases j <;> simp [matY, Matrix.mul_apply, Fin.sum_univ_three] <;> first | linear_combination h | ring

theorem matZ_orth (a : ℝ) : (matZ a)ᵀ * matZ a = 1 := by
  have h := Real.sin_sq_add_cos_sq a
  ext i j
  fin_cases i <;> fin_cases j <;> simp [matZ, Matrix.mul_apply, Fin.sum_univ_three] <;> first | linear_combination h | ring

theorem mat_det (a : ℝ) : (matX a).det = 1 ∧ (matY a).det = 1 ∧ (matZ a).det = 1 := by
  have h := Real.sin_sq_add_cos_sq a
  refine ⟨?_, ?_, ?_⟩ <;> simp [matX, matY, matZ, Matrix.det_fin_three] <;> linear_combination h

/-- **C104.**  The attitude matrix is a rotation: first by roll about the first axis, then by pitch about the second one, then by yaw about the third one. -/
theorem C104_attitude (v u : Vec) : Rotation (toAttMat v) ∧ Mat.mulv (toAttMat v) u = rotZ (v 2) (rotY (v 1) (rotX (v 0) u)) := by
  refine ⟨⟨?_, ?_⟩, ?_⟩
  · rw [toAttMat_eq, Matrix.transpose_mul, Matrix.transpose_mul]
    calc (matX (v 0))ᵀ * ((matY (v 1))ᵀ * (matZ (v 2))ᵀ) * (matZ (v 2) * matY (v 1) * matX (v 0))
        = (matX (v 0))ᵀ * ((matY (v 1))ᵀ * ((matZ (v 2))ᵀ * matZ (v 2)) * matY (v 1)) * matX (v 0) := by simp only [Matrix.mul_assoc]
      _ = 1 := by rw [matZ_orth, Matrix.mul_one, matY_orth, Matrix.mul_one, matX_orth]
  · rw [toAttMat_eq, Matrix.det_mul, Matrix.det_mul, (mat_det _).1, (mat_det _).2.1, (mat_det _).2.2]
    norm_num
  · rw [(C104_matrices (toAttMat v) (toAttMat v) 0 u).2.2.2.2.2.1, toAttMat_eq, ← Matrix.mulVec_mulVec, ← Matrix.mulVec_mulVec]
    have hx : matX (v 0) *ᵥ u = rotX (v 0) u := by
      ext i; fin_cases i <;> (simp [matX, rotX, Matrix.mulVec, dotProduct, Fin.sum_univ_three]; try ring)
    have hy : ∀ w, matY (v 1) *ᵥ w = rotY (v 1) w := by
      intro w; ext i; fin_cases i <;> simp [matY, rotY, Matrix.mulVec, dotProduct, Fin.sum_univ_three]
    have hz : ∀ w, matZ (v 2) *ᵥ w = rotZ (v 2) w := by
      intro w; ext i; fin_cases i <;> simp [matZ, rotZ, Matrix.mulVec, dotProduct, Fin.sum_univ_three] <;> ring
    rw [hx, hy, hz]

theorem att_entries (v : Vec) :
    toAttMat v 2 0 = -Real.sin (v 1) ∧ toAttMat v 2 1 = Real.cos (v 1) * Real.sin (v 0) ∧ toAttMat v 2 2 = Real.cos (v 1) * Real.cos (v 0) ∧
    toAttMat v 1 0 = Real.cos (v 1) * Real.sin (v 2) ∧ toAttMat v 0 0 = Real.cos (v 1) * Real.cos (v 2) := by
  refine ⟨?_, ?_, ?_, ?_, ?_⟩ <;> simp [toAttMat, mulm_apply] <;> ring

theorem atan2_polar (r t : ℝ) (hr : 0 < r) (ht : t ∈ Set.Ioc (-Real.pi) Real.pi) : atan2 (r * Real.sin t) (r * Real.cos t) = t := by
  refine Eq.trans ?_ (Complex.arg_mul_cos_add_sin_mul_I hr ht)
  unfold atan2
  congr 1
  apply Complex.ext <;> simp [← Complex.ofReal_cos, ← Complex.ofReal_sin]

/-- **C104.**  The angles of the attitude matrix of some angles are these angles, unless the pitch is straight up or down. -/
theorem C104_angles (v : Vec) (hv : Angles v) : toAttAngles (toAttMat v) = v := by
  obtain ⟨h0, h1, h2⟩ := hv
  obtain ⟨e1, e2, e3, e4, e5⟩ := att_entries v
  have hc : 0 < Real.cos (v 1) := Real.cos_pos_of_mem_Ioo h1
  have hp : v 1 ∈ Set.Ioc (-Real.pi) Real.pi := ⟨by linarith [h1.1, Real.pi_pos], by linarith [h1.2, Real.pi_pos]⟩
  have hs : Real.sqrt (toAttMat v 2 1 * toAttMat v 2 1 + toAttMat v 2 2 * toAttMat v 2 2) = Real.cos (v 1) := by
    rw [e2, e3, show Real.cos (v 1) * Real.sin (v 0) * (Real.cos (v 1) * Real.sin (v 0)) + Real.cos (v 1) * Real.cos (v 0) * (Real.cos (v 1) * Real.cos (v 0)) =
      Real.cos (v 1) * Real.cos (v 1) by linear_combination Real.cos (v 1) ^ 2 * Real.sin_sq_add_cos_sq (v 0)]
    exact Real.sqrt_mul_self hc.le
  have p0 := atan2_polar _ _ hc h0
  have p1 := atan2_polar 1 _ one_pos hp
  have p2 := atan2_polar _ _ hc h2
  rw [one_mul, one_mul] at p1
  unfold toAttAngles
  rw [hs, e1, e2, e3, e4, e5, neg_neg, p0, p1, p2]
  ext i; fin_cases i <;> rfl

theorem atan2_cos_sin (x y r : ℝ) (hr : 0 < r) (h : x * x + y * y = r * r) :
    Real.cos (atan2 y x) = x / r ∧ Real.sin (atan2 y x) = y / r := by
  have hn : ‖(⟨x, y⟩ : ℂ)‖ = r := by
    rw [Complex.norm_def, Complex.normSq_mk, h, Real.sqrt_mul_self hr.le]
  have h0 : (⟨x, y⟩ : ℂ) ≠ 0 := by
    intro e
    rw [e, norm_zero] at hn
    exact hr.ne hn
  unfold atan2
  rw [Complex.cos_arg h0, Complex.sin_arg, hn]
  exact ⟨rfl, rfl⟩

/-- **C104.**  The attitude matrix of the angles of a rotation is this rotation, unless it turns the first axis straight up or down. -/
theorem C104_angles_of_rotation (m : Mat) (hm : Rotation m) (hg : m 2 1 * m 2 1 + m 2 2 * m 2 2 ≠ 0) : toAttMat (toAttAngles m) = m := by
  obtain ⟨ho, hd⟩ := hm
  have ho' : mat m * (mat m)ᵀ = 1 := mul_eq_one_comm.mp ho
  have hadj : (mat m)ᵀ = (mat m).adjugate := by
    have h1 : (mat m).adjugate * (mat m * (mat m)ᵀ) = (mat m)ᵀ := by
      rw [← Matrix.mul_assoc, Matrix.adjugate_mul, hd, one_smul, Matrix.one_mul]
    rw [← h1, ho', Matrix.mul_one]
  have r2 : m 2 0 * m 2 0 + m 2 1 * m 2 1 + m 2 2 * m 2 2 = 1 := by
    have := congrFun (congrFun ho' 2) 2
    simpa [mat, Matrix.mul_apply, Fin.sum_univ_three] using this
  have c0 : m 0 0 * m 0 0 + m 1 0 * m 1 0 + m 2 0 * m 2 0 = 1 := by
    have := congrFun (congrFun ho 0) 0
    simpa [mat, Matrix.mul_apply, Fin.sum_univ_three] using this
  have r02 : m 0 0 * m 2 0 + m 0 1 * m 2 1 + m 0 2 * m 2 2 = 0 := by
    have := congrFun (congrFun ho' 0) 2
    simpa [mat, Matrix.mul_apply, Fin.sum_univ_three] using this
  have r12 : m 1 0 * m 2 0 + m 1 1 * m 2 1 + m 1 2 * m 2 2 = 0 := by
    have := congrFun (congrFun ho' 1) 2
    simpa [mat, Matrix.mul_apply, Fin.sum_univ_three] using this
  have k00 : m 0 0 = m 1 1 * m 2 2 - m 1 2 * m 2 1 := by
    have := congrFun (congrFun hadj 0) 0
    rw [Matrix.adjugate_fin_three] at this
    simpa [mat] using this
  have k10 : m 1 0 = m 0 2 * m 2 1 - m 0 1 * m 2 2 := by
    have := congrFun (congrFun hadj 0) 1
    rw [Matrix.adjugate_fin_three] at this
    simp [mat] at this
    linear_combination this
  generalize hD : m 2 1 * m 2 1 + m 2 2 * m 2 2 = D at hg
  have hDp : 0 < D := lt_of_le_of_ne (by rw [← hD]; exact add_nonneg (mul_self_nonneg _) (mul_self_nonneg _)) (Ne.symm hg)
  have hc : 0 < Real.sqrt D := Real.sqrt_pos.mpr hDp
  have hcc : Real.sqrt D * Real.sqrt D = D := Real.mul_self_sqrt hDp.le
  generalize hC : Real.sqrt D = c at hc hcc
  obtain ⟨cr, sr⟩ := atan2_cos_sin (m 2 2) (m 2 1) c hc (by rw [hcc, ← hD]; ring)
  obtain ⟨cp, sp⟩ := atan2_cos_sin c (-m 2 0) 1 one_pos (by rw [hcc, ← hD]; linear_combination r2)
  obtain ⟨cy, sy⟩ := atan2_cos_sin (m 0 0) (m 1 0) c hc (by rw [hcc, ← hD]; linear_combination c0 - r2)
  have hcn : c ≠ 0 := hc.ne'
  have a0 : toAttAngles m 0 = atan2 (m 2 1) (m 2 2) := rfl
  have a1 : toAttAngles m 1 = atan2 (-m 2 0) c := by
    show atan2 (-m 2 0) (Real.sqrt (m 2 1 * m 2 1 + m 2 2 * m 2 2)) = _
    rw [hD, hC]
  have a2 : toAttAngles m 2 = atan2 (m 1 0) (m 0 0) := rfl
  have hcd : c ^ 2 = m 2 1 * m 2 1 + m 2 2 * m 2 2 := by rw [hD, ← hcc]; ring
  ext i j
  fin_cases i <;> fin_cases j <;> simp [toAttMat, mulm_apply, a0, a1, a2, cr, sr, cp, sp, cy, sy] <;> field_simp
  · linear_combination (-m 2 1) * r02 - m 2 2 * k10 - m 0 1 * hcd
  · linear_combination (-m 2 2) * r02 + m 2 1 * k10 - m 0 2 * hcd
  · linear_combination (-m 2 1) * r12 + m 2 2 * k00 - m 1 1 * hcd
  · linear_combination (-m 2 2) * r12 - m 2 1 * k00 - m 1 2 * hcd

theorem normalize_eq (m : Mat) : mat (Mat.normalize m) = mat m + (1 / 2 : ℝ) • (mat m * (1 - (mat m)ᵀ * mat m)) := by
  have hadd : ∀ a b : Mat, mat (Mat.add a b) = mat a + mat b := fun a b => (C104_matrices a b 0 0).1
  have hsub : ∀ a b : Mat, mat (Mat.sub a b) = mat a - mat b := fun a b => (C104_matrices a b 0 0).2.1
  have hmul : ∀ (a : Mat) (x : ℝ), mat (Mat.mul a x) = x • mat a := fun a x => (C104_matrices a a x 0).2.2.1
  rw [Mat.normalize, hadd, hmul, mulm_eq, hsub, mulm_eq, identity_eq, transpose_eq]

/-- **C104.**  `normalize` of a matrix leaves an orthogonal matrix alone and makes the distance from orthogonality small of second order: with `E = 1 - mᵀm` it is
`3/4 E² + 1/4 E³` after the call.  Missing: the result is not orthogonal in general. -/
theorem C104_orthogonalized_partial (m : Mat) :
    ((mat m)ᵀ * mat m = 1 → Mat.normalize m = m) ∧
    (∀ E, E = 1 - (mat m)ᵀ * mat m →
      1 - (mat (Mat.normalize m))ᵀ * mat (Mat.normalize m) = (3 / 4 : ℝ) • (E * E) + (1 / 4 : ℝ) • (E * E * E)) := by
  constructor
  · intro h
    have : mat (Mat.normalize m) = mat m := by rw [normalize_eq, h]; simp
    exact this
  · rintro E rfl
    rw [normalize_eq]
    generalize mat m = M
    have hS : ((M + (1 / 2 : ℝ) • (M * (1 - Mᵀ * M)))ᵀ) = Mᵀ + (1 / 2 : ℝ) • ((1 - Mᵀ * M) * Mᵀ) := by
      simp [Matrix.transpose_mul, Matrix.transpose_sub]
    rw [hS]
    have : (Mᵀ + (1 / 2 : ℝ) • ((1 - Mᵀ * M) * Mᵀ)) * (M + (1 / 2 : ℝ) • (M * (1 - Mᵀ * M))) =
        Mᵀ * M + (1 / 2 : ℝ) • (Mᵀ * M * (1 - Mᵀ * M)) + (1 / 2 : ℝ) • ((1 - Mᵀ * M) * (Mᵀ * M)) +
          (1 / 4 : ℝ) • ((1 - Mᵀ * M) * (Mᵀ * M) * (1 - Mᵀ * M)) := by
      simp only [Matrix.add_mul, Matrix.mul_add, Matrix.smul_mul, Matrix.mul_smul, Matrix.mul_assoc, smul_smul, smul_add]
      norm_num
      abel
    rw [this]
    generalize Mᵀ * M = S
    simp only [Matrix.sub_mul, Matrix.mul_sub, Matrix.one_mul, Matrix.mul_one, smul_sub, Matrix.mul_assoc]
    module

/-- **C104.**  `normalize` is documented to return the orthogonalized matrix, but it takes one step that can also lead away from orthogonality. -/
theorem C104_orthogonalized_violated : ∃ m : Mat, mat m = (3 : ℝ) • 1 ∧ mat (Mat.normalize m) = (-9 : ℝ) • 1 ∧
    (mat (Mat.normalize m))ᵀ * mat (Mat.normalize m) ≠ 1 := by
  have h0 : mat (Mat.mul identity 3) = (3 : ℝ) • 1 := by rw [(C104_matrices identity identity 3 0).2.2.1, identity_eq]
  have h1 : mat (Mat.normalize (Mat.mul identity 3)) = (-9 : ℝ) • 1 := by
    rw [normalize_eq, h0, Matrix.transpose_smul, Matrix.transpose_one, Matrix.smul_mul, Matrix.one_mul, Matrix.smul_mul, Matrix.one_mul]
    module
  refine ⟨_, h0, h1, ?_⟩
  rw [h1]
  intro h
  have := congrFun (congrFun h 0) 0
  simp at this
  norm_num at this

/-- Cases that meet the hypotheses. -/
example : Angles ![1, 1 / 2, -1] := by
  have := Real.two_le_pi
  refine ⟨⟨?_, ?_⟩, ⟨?_, ?_⟩, ⟨?_, ?_⟩⟩ <;> simp <;> linarith
example : Rotation ![![0, -1, 0], ![1, 0, 0], ![0, 0, 1]] := by
  constructor
  · ext i j; fin_cases i <;> fin_cases j <;> simp [mat, Matrix.mul_apply, Fin.sum_univ_three]
  · simp [mat, Matrix.det_fin_three]

end Umka.Geom.Props
