import Verif.Lemmas.Symmetry

/-!
Properties C15 (scaling) and C16 (rotational symmetry) of whole traces.

Specification vocabulary: `scaleRow s` multiplies positions and optical paths by `s` and keeps
directions and indices; `Planar.row R` applies a transverse orthogonal map to positions and
directions and keeps indices and optical paths (both in `Verif.Lemmas.Symmetry`).
-/

namespace RayOpt

open V3 Elem Sys Shape Transform

/-! ## C15 -/

/-- C15: rescaling a system by `s > 0` and the given rays by `s` rescales the whole trace:
positions and optical paths by `s`, directions, indices, and clipping unchanged. -/
theorem c15_trace {nwt : NewtonFn} {s : ℝ} (hs : 0 < s) {sys : List Elem}
    (hsys : ∀ e ∈ sys, Reachable e.tf)
    (hn : NewtonScales nwt s ∨ ∀ e ∈ sys, ∀ sh, e.shape = some sh → sh.aspherics = none)
    (l : ℝ) (clp : Bool) (start : ℕ) (stop : Option ℤ) (arr : List Row) :
    gtPropagate nwt (rescale s sys) l clp start stop (arr.map (scaleRow s))
      = (gtPropagate nwt sys l clp start stop arr).map (·.map (scaleRow s)) := by
  apply gtPropagate_equivariant (g := scaleRay s)
  · intro e he r
    exact step_rescale hs e (hsys e he) (hn.imp_right fun h => h e he) l clp r
  · intro e he x
    exact rayOfRow_rescale hs e (hsys e he) x

/-- C15: rescaling moves every element to `s` times its place without turning it, and every
surface point `p` of a surface to `s` times it (the surface function is zero at `s p` in the
rescaled element iff it is at `p` in the original one). -/
theorem c15_geometry {s : ℝ} (hs : 0 < s) (e : Elem) (h : Reachable e.tf) :
    (e.rescale s).tf.offset = s • e.tf.offset ∧
    (∀ v, (e.rescale s).tf.fromNormal v = e.tf.fromNormal v) ∧
    (∀ sh, e.shape = some sh → ∃ sh', (e.rescale s).shape = some sh' ∧
      ∀ p, sh'.surfaceSag (s • p) = some 0 ↔ sh.surfaceSag p = some 0) ∧
    (∀ p, inside (e.rescale s).radius (s • p) ↔ inside e.radius p) := by
  obtain ⟨h1, h2, _⟩ := rescale_tf h hs
  refine ⟨h1, fun v => ?_, fun sh hsh => ⟨sh.rescale s, by simp [Elem.rescale, hsh], fun p => ?_⟩,
    fun p => inside_scale hs _ _⟩
  · show doRotate _ _ _ = doRotate _ _ _
    have : (e.rescale s).tf.rotNormal = e.tf.rotNormal := h2
    rw [this]
  · rw [surfaceSag_rescale hs]
    cases sh.surfaceSag p with
    | none => simp
    | some a => simp [hs.ne']

/-- C15: rescaling by `s` and then by `1/s` restores every element. -/
theorem c15_restore {s : ℝ} (hs : 0 < s) {sys : List Elem} (hsys : ∀ e ∈ sys, Reachable e.tf) :
    rescale (1 / s) (rescale s sys) = sys := by
  unfold Sys.rescale
  rw [List.map_map]
  conv_rhs => rw [← List.map_id sys]
  apply List.map_congr_left
  intro e he
  have htf := setDistance_scale_inv (hsys e he) hs
  obtain ⟨tf, rad, shape, mat⟩ := e
  simp only [Function.comp_apply, Elem.rescale, id, Elem.mk.injEq, and_true]
  refine ⟨htf, ?_, ?_⟩
  · cases rad with
    | inf => rfl
    | fin r => simp only [Radius.scale]; congr 1; field_simp
  · cases shape with
    | none => rfl
    | some sh =>
      simp only [Option.map_some, Shape.rescale]
      congr 1
      obtain ⟨c, k, asp, alt⟩ := sh
      simp only [Shape.mk.injEq, true_and, and_true]
      constructor
      · field_simp
      · cases asp with
        | none => rfl
        | some l => simp only [Option.map_some]; congr 1; exact rescaleAsph_inv hs.ne' l 0

/-- Newton's method run for `k` steps, NaN if the derivative vanishes. -/
noncomputable def newtonSteps : ℕ → NewtonFn
  | 0, _, _, x => some x
  | k + 1, f, f', x => (f x).bind fun a => (f' x).bind fun b =>
      if b = 0 then none else newtonSteps k f f' (x - a / b)

/-- The hypothesis of `c15_trace` about the root finder holds for Newton's method. -/
example (k : ℕ) (s : ℝ) (hs : 0 < s) : NewtonScales (newtonSteps k) s := by
  intro f f'
  induction k with
  | zero => intro x; rfl
  | succ k ih =>
    intro x
    have e : s * x / s = x := by field_simp
    simp only [newtonSteps, e]
    cases f x with
    | none => rfl
    | some a =>
      cases f' x with
      | none => rfl
      | some b =>
        simp only [Option.map_some, Option.bind_some]
        by_cases hb : b = 0
        · simp [hb]
        · simp only [hb, if_false]
          have : s * x - s * a / b = s * (x - a / b) := by ring
          rw [this, ih]

/-- A system of a flat element and a sphere meets the hypotheses of `c15_trace` for any root
finder. -/
example (nwt : NewtonFn) (m : Material) :
    let sys : List Elem := [⟨Transform.init 0 ez 0 none, .inf, none, none⟩,
      ⟨Transform.init 5 ⟨0, 1, 2⟩ ⟨1 / 10, 0, 0⟩ none, .fin 1, some ⟨1 / 10, 1 / 2, none, false⟩,
        some (some m)⟩]
    (∀ e ∈ sys, Reachable e.tf) ∧
    (NewtonScales nwt 2 ∨ ∀ e ∈ sys, ∀ sh, e.shape = some sh → sh.aspherics = none) := by
  refine ⟨?_, Or.inr ?_⟩
  · intro e he
    rcases List.mem_cons.mp he with rfl | he
    · exact ⟨_, _, _, none, [], rfl⟩
    · rcases List.mem_cons.mp he with rfl | he
      · exact ⟨_, _, _, none, [], rfl⟩
      · cases he
  · intro e he sh hsh
    rcases List.mem_cons.mp he with rfl | he
    · cases hsh
    · rcases List.mem_cons.mp he with rfl | he
      · cases hsh; rfl
      · cases he

/-! ## C16 -/

/-- An element on the optical axis, not turned. -/
def Centred (e : Elem) : Prop := Reachable e.tf ∧ e.tf.direction = ez ∧ e.tf.angles = 0

/-- C16: in a centred system a rotation about the axis, or a reflection in a plane containing the
axis, of the given rays gives the same rotation or reflection of the whole trace; optical paths,
indices and clipping are unchanged.  (The Newton iteration for aspherics is covered: it sees the
same function.) -/
theorem c16_trace {R : Planar} (hR : R.Orth) (nwt : NewtonFn) {sys : List Elem}
    (hsys : ∀ e ∈ sys, Centred e)
    (l : ℝ) (clp : Bool) (start : ℕ) (stop : Option ℤ) (arr : List Row) :
    gtPropagate nwt sys l clp start stop (arr.map R.row)
      = (gtPropagate nwt sys l clp start stop arr).map (·.map R.row) := by
  have h := gtPropagate_equivariant (nwt := nwt) (l := l) (clp := clp) (f := R.row) (g := R.ray)
    (φ := id) (sys := sys) (fun e he r => ?_) (fun e he x => ?_) start stop arr
  · rwa [List.map_id] at h
  · obtain ⟨h1, h2, h3⟩ := hsys e he
    obtain ⟨h4, h5, h6⟩ := centred_tf h1 h2 h3
    exact step_planar hR nwt e h4 h5 h6 l clp r
  · obtain ⟨h1, h2, h3⟩ := hsys e he
    exact rayOfRow_planar e (centred_tf h1 h2 h3).1 x

/-- The rotation by an angle about the z axis. -/
noncomputable def rotZ (φ : ℝ) : Planar := ⟨Real.cos φ, -Real.sin φ, Real.sin φ, Real.cos φ⟩

theorem rotZ_orth (φ : ℝ) : (rotZ φ).Orth := by
  have := Real.sin_sq_add_cos_sq φ
  constructor <;> simp only [rotZ] <;> nlinarith

/-- C16 for a rotation by an angle. -/
theorem c16_rotation (φ : ℝ) (nwt : NewtonFn) {sys : List Elem} (hsys : ∀ e ∈ sys, Centred e)
    (l : ℝ) (clp : Bool) (start : ℕ) (stop : Option ℤ) (arr out : List Row)
    (h : gtPropagate nwt sys l clp start stop arr = some out) :
    gtPropagate nwt sys l clp start stop (arr.map (rotZ φ).row) = some (out.map (rotZ φ).row) := by
  rw [c16_trace (rotZ_orth φ) nwt hsys, h]; rfl

/-- A vector lies in the plane containing the axis with transverse normal `(p, q)`. -/
def InPlane (p q : ℝ) (v : Option V3) : Prop := ∀ w, v = some w → p * w.x + q * w.y = 0

/-- C16: a ray in a meridional plane stays in it. -/
theorem c16_meridional {p q : ℝ} (hpq : p ^ 2 + q ^ 2 = 1) (nwt : NewtonFn) {sys : List Elem}
    (hsys : ∀ e ∈ sys, Centred e) (l : ℝ) (clp : Bool) (start : ℕ) (stop : Option ℤ)
    (arr out : List Row) (h : gtPropagate nwt sys l clp start stop arr = some out)
    (harr : ∀ x ∈ arr, InPlane p q x.y ∧ InPlane p q x.u ∧ InPlane p q x.i) :
    ∀ x ∈ out, InPlane p q x.y ∧ InPlane p q x.u ∧ InPlane p q x.i := by
  -- the reflection in the plane
  let R : Planar := ⟨1 - 2 * p * p, -2 * p * q, -2 * p * q, 1 - 2 * q * q⟩
  have hR : R.Orth := by
    constructor <;> simp only [R] <;> grind
  have hfix : ∀ w : V3, p * w.x + q * w.y = 0 → R.app w = w := by
    intro w hw
    ext
    · simp only [Planar.app, R]; linear_combination (-2 * p) * hw
    · simp only [Planar.app, R]; linear_combination (-2 * q) * hw
    · rfl
  have hfix' : ∀ w : V3, R.app w = w → p * w.x + q * w.y = 0 := by
    intro w hw
    have h1 := congrArg V3.x hw
    have h2 := congrArg V3.y hw
    simp only [Planar.app, R] at h1 h2
    grind
  have hmap : ∀ v : Option V3, InPlane p q v → v.map R.app = v := by
    intro v hv
    cases v with
    | none => rfl
    | some w => simp only [Option.map_some]; rw [hfix w (hv w rfl)]
  have hmap' : ∀ v : Option V3, v.map R.app = v → InPlane p q v := by
    intro v hv w hw
    subst hw
    exact hfix' w (Option.some.inj hv)
  have harr' : arr.map R.row = arr := by
    conv_rhs => rw [← List.map_id arr]
    apply List.map_congr_left
    intro x hx
    obtain ⟨h1, h2, h3⟩ := harr x hx
    simp only [Planar.row, hmap _ h1, hmap _ h2, hmap _ h3, id]
  have key := c16_trace hR nwt hsys l clp start stop arr
  rw [harr', h] at key
  simp only [Option.map_some, Option.some.injEq] at key
  intro x hx
  have hx' : R.row x = x := by
    obtain ⟨j, hj, rfl⟩ := List.mem_iff_getElem.mp hx
    have := congrArg (·[j]?) key
    simp only [List.getElem?_map, List.getElem?_eq_getElem hj, Option.map_some,
      Option.some.injEq] at this
    exact this.symm
  refine ⟨hmap' _ ?_, hmap' _ ?_, hmap' _ ?_⟩
  · exact congrArg Row.y hx'
  · exact congrArg Row.u hx'
  · exact congrArg Row.i hx'

/-- A centred system with an aspheric surface. -/
example (m : Material) : ∀ e ∈ ([⟨Transform.init 0 ez 0 none, .inf, none, none⟩,
    ⟨Transform.init 5 ez 0 none, .fin 1, some ⟨1 / 10, 1 / 2, some [0, 1], false⟩,
      some (some m)⟩] : List Elem), Centred e := by
  have : ∀ d : ℝ, 0 ≤ d → (Transform.init d ez 0 none).direction = ez := by
    intro d hd
    simp only [Transform.init]
    rw [update_direction, updDir_of_unit ez_dot, if_neg (not_lt.mpr hd)]
  intro e he
  rcases List.mem_cons.mp he with rfl | he
  · exact ⟨⟨_, _, _, none, [], rfl⟩, this 0 (by norm_num), update_angles _ _ _⟩
  · rcases List.mem_cons.mp he with rfl | he
    · exact ⟨⟨_, _, _, none, [], rfl⟩, this 5 (by norm_num), update_angles _ _ _⟩
    · cases he

end RayOpt
