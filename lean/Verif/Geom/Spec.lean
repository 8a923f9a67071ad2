import Verif.Geom.Model
import Mathlib.LinearAlgebra.CrossProduct
import Mathlib.LinearAlgebra.Matrix.Determinant.Basic
/-! # Vectors and matrices: specification, with the vectors and matrices of Mathlib -/

namespace Umka.Geom.Spec

/-- A matrix of the library as a matrix of Mathlib. -/
def mat (m : Mat) : Matrix (Fin 3) (Fin 3) ℝ := Matrix.of m

/-- A rotation: it keeps lengths, angles and orientation. -/
def Rotation (m : Mat) : Prop := (mat m).transpose * mat m = 1 ∧ (mat m).det = 1

/-- The rotations about the axes. -/
noncomputable def rotX (a : ℝ) (u : Vec) : Vec := ![u 0, Real.cos a * u 1 - Real.sin a * u 2, Real.sin a * u 1 + Real.cos a * u 2]
noncomputable def rotY (a : ℝ) (u : Vec) : Vec := ![Real.cos a * u 0 + Real.sin a * u 2, u 1, -Real.sin a * u 0 + Real.cos a * u 2]
noncomputable def rotZ (a : ℝ) (u : Vec) : Vec := ![Real.cos a * u 0 - Real.sin a * u 1, Real.sin a * u 0 + Real.cos a * u 1, u 2]

/-- Roll and yaw in a full turn, pitch up to a quarter turn, short of straight up and down. -/
def Angles (v : Vec) : Prop :=
  v 0 ∈ Set.Ioc (-Real.pi) Real.pi ∧ v 1 ∈ Set.Ioo (-(Real.pi / 2)) (Real.pi / 2) ∧ v 2 ∈ Set.Ioc (-Real.pi) Real.pi

end Umka.Geom.Spec
