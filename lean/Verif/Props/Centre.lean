import Verif.Props.Stigmatic

/-!
Property C118, rays through the centre of a sphere.
-/

namespace RayOpt

open V3 Elem Shape

/-- On a sphere the normal of a ray through the centre is along the ray. -/
theorem LeavesConic.centre {nwt : NewtonFn} {e : Elem} {s : Shape} {l : ℝ} {clp : Bool} {y u : V3} {n : ℝ} {q v : V3}
    (h : LeavesConic nwt e s l clp y u n q v) (hk : s.conic = 0) (hA : ∃ a : ℝ, y + a • u = axial (1 / s.curvature)) :
    ∃ b : ℝ, quadricNormal s.curvature s.conic q = b • u := by
  obtain ⟨⟨t, ht⟩, -, -⟩ := h.meets
  obtain ⟨a, ha⟩ := hA
  have hc : s.curvature * (1 / s.curvature) = 1 := mul_one_div_cancel h.curved
  refine ⟨s.curvature * (a - t), ?_⟩
  have hx := congrArg V3.x ha; have hy := congrArg V3.y ha; have hz := congrArg V3.z ha
  simp only [axial, add_x, add_y, add_z, smul_x, smul_y, smul_z] at hx hy hz
  rw [hk, ht]
  ext <;> simp only [quadricNormal, add_x, add_y, add_z, smul_x, smul_y, smul_z]
  · linear_combination (-s.curvature) * hx
  · linear_combination (-s.curvature) * hy
  · linear_combination (-s.curvature) * hz - hc

/-- C118: a ray through the centre of a refracting sphere goes straight on, whatever the indices. -/
theorem c118_centre {nwt : NewtonFn} {e : Elem} {s : Shape} {l : ℝ} {clp : Bool} {y u : V3} {n n' : ℝ} {q v : V3}
    (h : LeavesConic nwt e s l clp y u n q v) (hn : 0 < n) (hn' : 0 < n')
    (hmu : getNMu (e.material.getD none) n l = (n', n / n')) (halt : s.alternate = false) (hk : s.conic = 0)
    (hA : ∃ a : ℝ, y + a • u = axial (1 / s.curvature)) : v = u := by
  obtain ⟨b, hb⟩ := h.centre hk hA
  obtain ⟨-, -, hside⟩ := h.meets
  rw [halt] at hside
  refine h.snell hn hn' hmu halt ⟨h.unit, ?_, by simpa using hside⟩
  rw [hb]
  ext <;> simp only [V3.cross, smul_x, smul_y, smul_z] <;> ring

/-- C118: a ray through the centre of a spherical mirror is sent back along itself. -/
theorem c118_centre_mirror {nwt : NewtonFn} {e : Elem} {s : Shape} {l : ℝ} {clp : Bool} {y u : V3} {n n' : ℝ} {q v : V3}
    (h : LeavesConic nwt e s l clp y u n q v) (hmu : getNMu (e.material.getD none) n l = (n', -1)) (hk : s.conic = 0)
    (hA : ∃ a : ℝ, y + a • u = axial (1 / s.curvature)) : v = -u := by
  obtain ⟨b, hb⟩ := h.centre hk hA
  refine h.reflected hmu ⟨?_, neg_dot' _ _⟩
  rw [hb]
  ext <;> simp [V3.cross] <;> ring

/-- `c118_centre` for a ball of glass. -/
example (nwt : NewtonFn) (l : ℝ) : LeavesConic nwt (conicAt 1 0 ⟨false, true, fun _ => 3 / 2⟩)
      ⟨1, 0, none, false⟩ l false ⟨-3 / 5, 0, 1 / 5⟩ ⟨3 / 5, 0, 4 / 5⟩ 1 ⟨-3 / 5, 0, 1 / 5⟩ ⟨3 / 5, 0, 4 / 5⟩ ∧
    ∃ a : ℝ, (⟨-3 / 5, 0, 1 / 5⟩ + a • (⟨3 / 5, 0, 4 / 5⟩ : V3) : V3) = axial (1 / 1) := by
  refine ⟨leaves_of nwt (by norm_num) (by norm_num [V3.dot]) (by norm_num) (by norm_num [quadCoeff])
    (by norm_num [OnQuadric]) (by norm_num) (by norm_num [V3.dot, quadricNormal]) (getNMu_glass 1 l (3 / 2))
    (by norm_num) (by norm_num) fun r hr h0 => ?_, ⟨1, by ext <;> norm_num [axial]⟩⟩
  have hx := congrArg V3.x hr; have hy := congrArg V3.y hr; have hz := congrArg V3.z hr
  norm_num [quadricNormal] at hx hy hz
  have e1 : r.x = 3 / 4 := by linarith
  have e3 : r.z = 1 := by linarith
  rw [c02_snell (by norm_num) (by norm_num) h0 (by norm_num [V3.dot]) (by norm_num [V3.dot, e1, hy, e3])]
  exact ⟨by norm_num [V3.dot], by ext <;> norm_num [V3.cross, e1, hy, e3], by norm_num [V3.dot, e1, hy, e3]⟩

/-- `c118_centre_mirror` for a convex mirror. -/
example (nwt : NewtonFn) (l : ℝ) : LeavesConic nwt (conicAt 1 0 ⟨true, true, fun _ => 1⟩)
      ⟨1, 0, none, false⟩ l false ⟨-3 / 5, 0, 1 / 5⟩ ⟨3 / 5, 0, 4 / 5⟩ 1 ⟨-3 / 5, 0, 1 / 5⟩ ⟨-3 / 5, 0, -4 / 5⟩ := by
  refine leaves_of nwt (by norm_num) (by norm_num [V3.dot]) (by norm_num) (by norm_num [quadCoeff])
    (by norm_num [OnQuadric]) (by norm_num) (by norm_num [V3.dot, quadricNormal]) (getNMu_mirror 1 l)
    (by norm_num) (by norm_num) fun r hr h0 => ?_
  have hx := congrArg V3.x hr; have hy := congrArg V3.y hr; have hz := congrArg V3.z hr
  norm_num [quadricNormal] at hx hy hz
  have e1 : r.x = 3 / 4 := by linarith
  have e3 : r.z = 1 := by linarith
  rw [c03_reflect h0]
  exact ⟨by ext <;> norm_num [V3.cross, e1, hy, e3], by norm_num [V3.dot, e1, hy, e3]⟩

end RayOpt
