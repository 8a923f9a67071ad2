import Mathlib.Analysis.SpecialFunctions.Complex.Arg
import Mathlib.Data.Fin.VecNotation
/-!
# Vectors and matrices: model

The library module `mat.um` (`umka_runtime_src.h:472-573`), statement by statement.

Simplification.  Numbers of the type `real` are real numbers: rounding, overflow and NaN are not modelled.  `sqrt`, `sin`, `cos` are the functions on real numbers, `atan2(y, x)` is
the argument of the complex number `x + yi`.  Division by zero is a run-time error (`umka_vm.c:3501-3507`).
-/

namespace Umka.Geom

abbrev Vec := Fin 3 → ℝ
abbrev Mat := Fin 3 → Vec

/-- `atan2`. -/
noncomputable def atan2 (y x : ℝ) : ℝ := Complex.arg ⟨x, y⟩

/-- `umka_runtime_src.h:484`. -/
def Vec.add (u v : Vec) : Vec := ![u 0 + v 0, u 1 + v 1, u 2 + v 2]

/-- `umka_runtime_src.h:485`. -/
def Vec.sub (u v : Vec) : Vec := ![u 0 - v 0, u 1 - v 1, u 2 - v 2]

/-- `umka_runtime_src.h:486`. -/
def Vec.mul (u : Vec) (a : ℝ) : Vec := ![u 0 * a, u 1 * a, u 2 * a]

/-- `umka_runtime_src.h:487`; nothing: a run-time error. -/
noncomputable def Vec.div (u : Vec) (a : ℝ) : Option Vec := if a = 0 then none else some ![u 0 / a, u 1 / a, u 2 / a]

/-- `umka_runtime_src.h:488`. -/
def Vec.dot (u v : Vec) : ℝ := u 0 * v 0 + u 1 * v 1 + u 2 * v 2

/-- `umka_runtime_src.h:489`. -/
def Vec.cross (u v : Vec) : Vec := ![u 1 * v 2 - u 2 * v 1, u 2 * v 0 - u 0 * v 2, u 0 * v 1 - u 1 * v 0]

/-- `umka_runtime_src.h:490`. -/
def Vec.elementwise (u v : Vec) : Vec := ![u 0 * v 0, u 1 * v 1, u 2 * v 2]

/-- `umka_runtime_src.h:491`. -/
noncomputable def Vec.norm (v : Vec) : ℝ := Real.sqrt (Vec.dot v v)

/-- `umka_runtime_src.h:492`. -/
noncomputable def Vec.normalize (v : Vec) : Option Vec := Vec.div v (Vec.norm v)

/-- `umka_runtime_src.h:497`. -/
def Mat.add (m n : Mat) : Mat := ![Vec.add (m 0) (n 0), Vec.add (m 1) (n 1), Vec.add (m 2) (n 2)]

/-- `umka_runtime_src.h:498`. -/
def Mat.sub (m n : Mat) : Mat := ![Vec.sub (m 0) (n 0), Vec.sub (m 1) (n 1), Vec.sub (m 2) (n 2)]

/-- `umka_runtime_src.h:499`. -/
def Mat.mul (m : Mat) (a : ℝ) : Mat := ![Vec.mul (m 0) a, Vec.mul (m 1) a, Vec.mul (m 2) a]

/-- `umka_runtime_src.h:500`. -/
noncomputable def Mat.div (m : Mat) (a : ℝ) : Option Mat := do
  let x ← Vec.div (m 0) a
  let y ← Vec.div (m 1) a
  let z ← Vec.div (m 2) a
  some ![x, y, z]

/-- `umka_runtime_src.h:501`. -/
def Mat.mulv (m : Mat) (v : Vec) : Vec := ![Vec.dot (m 0) v, Vec.dot (m 1) v, Vec.dot (m 2) v]

/-- Assignment to `res[i][j]`. -/
def set (m : Mat) (i j : Fin 3) (x : ℝ) : Mat := fun k l => if k = i ∧ l = j then x else m k l

/-- `for i := 0; i < 3; i++`. -/
def loop {α : Type} (body : α → Fin 3 → α) (a : α) : α := body (body (body a 0) 1) 2

/-- The initial value of `var res: Mat`. -/
def zero : Mat := fun _ _ => 0

/-- `umka_runtime_src.h:503-513`. -/
def Mat.mulm (m n : Mat) : Mat :=
  loop (fun res i => loop (fun res j => loop (fun res k => set res i j (res i j + m i k * n k j)) res) res) zero

/-- `umka_runtime_src.h:515-521`. -/
def identity : Mat := loop (fun res i => set res i i 1) zero

/-- `umka_runtime_src.h:523-531`. -/
def Mat.transpose (m : Mat) : Mat := loop (fun res i => loop (fun res j => set res i j (m j i)) res) zero

/-- `umka_runtime_src.h:533-535`. -/
noncomputable def Mat.normalize (m : Mat) : Mat :=
  Mat.add m (Mat.mul (Mat.mulm m (Mat.sub identity (Mat.mulm (Mat.transpose m) m))) (1 / 2))

/-- `umka_runtime_src.h:540-544`. -/
def toRateMat (v : Vec) : Mat := ![![0, -v 2, v 1], ![v 2, 0, -v 0], ![-v 1, v 0, 0]]

/-- `umka_runtime_src.h:546-566`. -/
noncomputable def toAttMat (v : Vec) : Mat :=
  let sr := Real.sin (v 0)
  let cr := Real.cos (v 0)
  let sp := Real.sin (v 1)
  let cp := Real.cos (v 1)
  let sy := Real.sin (v 2)
  let cy := Real.cos (v 2)
  let rollMat : Mat := ![![1, 0, 0], ![0, cr, -sr], ![0, sr, cr]]
  let pitchMat : Mat := ![![cp, 0, sp], ![0, 1, 0], ![-sp, 0, cp]]
  let yawMat : Mat := ![![cy, -sy, 0], ![sy, cy, 0], ![0, 0, 1]]
  Mat.mulm (Mat.mulm yawMat pitchMat) rollMat

/-- `umka_runtime_src.h:568-573`. -/
noncomputable def toAttAngles (m : Mat) : Vec :=
  let roll := atan2 (m 2 1) (m 2 2)
  let pitch := atan2 (-m 2 0) (Real.sqrt (m 2 1 * m 2 1 + m 2 2 * m 2 2))
  let yaw := atan2 (m 1 0) (m 0 0)
  ![roll, pitch, yaw]

end Umka.Geom
