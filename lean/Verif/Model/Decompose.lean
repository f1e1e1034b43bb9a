import Verif.Model.Homog

/-!
Taking a homogeneous matrix apart and putting it together: `decompose_matrix` and `compose_matrix`
(rayopt/transformations.py 722-857).
-/

namespace RayOpt.H4

/-- `scale, shear, angles, translate, perspective`: the result of `decompose_matrix` and the arguments of
`compose_matrix`, rayopt/transformations.py 722-857.  The fourth component of `perspective` is kept apart. -/
@[ext] structure Parts where
  scale : V3
  shear : V3
  angles : V3
  translate : V3
  perspective : V3 × ℝ

/-- The two `ValueError`s of `decompose_matrix`. -/
inductive Degenerate
  /-- `"M[3, 3] is zero"` -/
  | zero
  /-- `"matrix is singular"` -/
  | singular
  deriving DecidableEq

/-- `_AXES2TUPLE["sxyz"] = (0, 0, 0, 0)`, rayopt/transformations.py 1664. -/
def sxyz : Axes := ⟨0, false, false, false⟩

/-- `numpy.linalg.inv` of a regular 3x3 matrix, by its cofactors. -/
noncomputable def inv3 (m : M3) : M3 := smul3 (1 / m.det)
  ⟨m.a11 * m.a22 - m.a12 * m.a21, m.a02 * m.a21 - m.a01 * m.a22, m.a01 * m.a12 - m.a02 * m.a11,
   m.a12 * m.a20 - m.a10 * m.a22, m.a00 * m.a22 - m.a02 * m.a20, m.a02 * m.a10 - m.a00 * m.a12,
   m.a10 * m.a21 - m.a11 * m.a20, m.a01 * m.a20 - m.a00 * m.a21, m.a00 * m.a11 - m.a01 * m.a10⟩

/-- The scale, the shear and the rotated axes (`row`) from the columns of the upper left block,
rayopt/transformations.py 772-793: the code works on the transposed matrix, whose rows they are. -/
noncomputable def gramSchmidt (r0 r1 r2 : V3) : V3 × V3 × V3 × V3 × V3 :=
  let s0 := r0.norm
  let r0 := (1 / s0) • r0
  let h0 := r0.dot r1
  let r1 := r1 - h0 • r0
  let s1 := r1.norm
  let r1 := (1 / s1) • r1
  let h0 := h0 / s1
  let h1 := r0.dot r2
  let r2 := r2 - h1 • r0
  let h2 := r1.dot r2
  let r2 := r2 - h2 • r1
  let s2 := r2.norm
  let r2 := (1 / s2) • r2
  let h1 := h1 / s2
  let h2 := h2 / s2
  if r0.dot (r1.cross r2) < 0 then (-⟨s0, s1, s2⟩, ⟨h0, h1, h2⟩, -r0, -r1, -r2)
  else (⟨s0, s1, s2⟩, ⟨h0, h1, h2⟩, r0, r1, r2)

/-- The angles from the rotated axes, rayopt/transformations.py 795-802. -/
noncomputable def rowAngles (r0 r1 r2 : V3) : V3 :=
  let a1 := Real.arcsin (-r0.z)
  if Real.cos a1 ≠ 0 then ⟨mathAtan2 r1.z r2.z, a1, mathAtan2 r0.y r0.x⟩
  else ⟨mathAtan2 (-r2.y) r1.y, a1, 0⟩

/-- `decompose_matrix(matrix)`, rayopt/transformations.py 722-804.  The determinant of `P` is that of its upper
left block, and the inverse of `P.T` that of an affine matrix. -/
noncomputable def decompose (m : H4) : Except Degenerate Parts :=
  if |m.d| < tfEps then .error .zero
  else
    let m := m.unit
    if m.a.det = 0 then .error .singular
    else
      let perspective :=
        if |m.c.x| > tfEps ∨ |m.c.y| > tfEps ∨ |m.c.z| > tfEps then
          let i := inv3 m.a
          (M3.vecMul m.c i, m.c.dot (-i.mulVec m.b) + m.d)
        else (0, 1)
      let (scale, shear, r0, r1, r2) := gramSchmidt ⟨m.a.a00, m.a.a10, m.a.a20⟩ ⟨m.a.a01, m.a.a11, m.a.a21⟩
        ⟨m.a.a02, m.a.a12, m.a.a22⟩
      .ok ⟨scale, shear, rowAngles r0 r1 r2, m.b, perspective⟩

/-- `compose_matrix(scale, shear, angles, translate, perspective)`, rayopt/transformations.py 807-857.  `none` is
the division by `M[3, 3] == 0`. -/
noncomputable def compose (scale shear angles translate : Option V3) (perspective : Option (V3 × ℝ)) :
    Option H4 :=
  let m := one
  let m := match perspective with
    | none => m
    | some p => m.mul ⟨M3.one, 0, p.1, p.2⟩
  let m := match translate with
    | none => m
    | some t => m.mul ⟨M3.one, t, 0, 1⟩
  let m := match angles with
    | none => m
    | some a => m.mul ⟨eulerMatrix a.x a.y a.z sxyz, 0, 0, 1⟩
  let m := match shear with
    | none => m
    | some h => m.mul ⟨⟨1, h.x, h.y, 0, 1, h.z, 0, 0, 1⟩, 0, 0, 1⟩
  let m := match scale with
    | none => m
    | some s => m.mul ⟨⟨s.x, 0, 0, 0, s.y, 0, 0, 0, s.z⟩, 0, 0, 1⟩
  if m.d = 0 then none else some m.unit

/-- `compose_matrix(*parts)`. -/
noncomputable def Parts.compose (p : Parts) : Option H4 :=
  H4.compose (some p.scale) (some p.shear) (some p.angles) (some p.translate) (some p.perspective)

end RayOpt.H4
