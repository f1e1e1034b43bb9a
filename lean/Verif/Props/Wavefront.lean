import Verif.Props.Spot

/-!
Apertures sized by a ray bundle (C78) and the optical path difference (C77).
-/

namespace RayOpt.Spot

open RayOpt.Elem (Row)
open RayOpt.Glass (pyGet?)

/-! ## C78 -/

section resize

variable (nwt : Shape.NewtonFn) (l : ℝ)

/-- The positions of a bundle of rays at each surface: `self.y[1:]`. -/
noncomputable def columns : List Elem → List Elem.Ray → List (List (Option V3))
  | [], _ => []
  | e :: es, b => (b.map fun r => (Elem.step nwt l false e r).1.y) ::
      columns es (b.map fun r => (Elem.step nwt l false e r).2)

theorem allSome_mem {α : Type*} {l : List (Option α)} {l' : List α} (h : allSome l = some l') :
    l = l'.map some := by
  induction l generalizing l' with
  | nil => cases h; rfl
  | cons x l ih =>
    simp only [allSome, Option.bind_eq_some_iff, Option.map_eq_some_iff] at h
    obtain ⟨a, rfl, l'', h1, rfl⟩ := h
    rw [ih h1, List.map_cons]

theorem maxRadius_spec {ys : List (Option V3)} {R : ℝ} (h : maxRadius ys = some R) :
    (∃ y, some y ∈ ys ∧ hypot y = R) ∧ ∀ o ∈ ys, ∃ y, o = some y ∧ hypot y ≤ R := by
  unfold maxRadius at h
  rw [Option.bind_eq_some_iff] at h
  obtain ⟨l', h1, h2⟩ := h
  have h3 := allSome_mem h1
  rw [List.max?_eq_some_iff] at h2
  obtain ⟨h4, h5⟩ := h2
  constructor
  · obtain ⟨y, hy, rfl⟩ := List.mem_map.mp h4
    exact ⟨y, by rw [h3]; exact List.mem_map_of_mem hy, rfl⟩
  · intro o ho
    rw [h3] at ho
    obtain ⟨y, hy, rfl⟩ := List.mem_map.mp ho
    exact ⟨y, rfl, h5 _ (List.mem_map_of_mem hy)⟩

theorem inside_hypot {y : V3} {R : ℝ} (h : hypot y ≤ R) : Elem.inside (.fin R) y := by
  have h0 : 0 ≤ hypot y := Real.sqrt_nonneg _
  have h1 : hypot y ^ 2 = y.x ^ 2 + y.y ^ 2 := Real.sq_sqrt (by positivity)
  show y.x ^ 2 + y.y ^ 2 ≤ R ^ 2
  rw [← h1]
  exact pow_le_pow_left₀ h0 h 2

/-- A surface with an aperture that the ray passes acts as without clipping. -/
theorem step_clip_pass (e : Elem) (R : ℝ) (r : Elem.Ray) (y : V3)
    (hy : (Elem.step nwt l false e r).1.y = some y) (hin : Elem.inside (.fin R) y) :
    Elem.step nwt l true { e with radius := .fin R } r = Elem.step nwt l false e r := by
  rw [step_y] at hy
  unfold Elem.step
  have : Elem.propagate nwt { e with radius := .fin R }
      (r.y.map fun y => e.tf.toNormal (y - e.tf.offset)) (r.u.map fun u => e.tf.toNormal u) r.n l
      true = Elem.propagate nwt e (r.y.map fun y => e.tf.toNormal (y - e.tf.offset))
      (r.u.map fun u => e.tf.toNormal u) r.n l false := by
    unfold Elem.propagate
    generalize (r.y.map fun y => e.tf.toNormal (y - e.tf.offset)) = Y at hy ⊢
    change (Y.bind fun y => (r.u.map fun u => e.tf.toNormal u).bind fun u =>
      (e.intercept nwt y u).map fun t => y + t • u) = some y at hy
    generalize (r.u.map fun u => e.tf.toNormal u) = U at hy ⊢
    cases Y with
    | none => simp at hy
    | some Y =>
      cases U with
      | none => simp at hy
      | some U =>
        simp only [Option.bind_some] at hy
        have hi : ∀ R', Elem.intercept nwt { e with radius := R' } Y U = e.intercept nwt Y U :=
          fun _ => rfl
        simp only [Option.bind_some, hi, hy, Elem.clip, if_pos hin, if_true, Bool.false_eq_true,
          if_false]
  simp only [this]

/-- C78: after `resize` tracing the same bundle with clipping gives the same rays as without. -/
theorem c78_resize (e0 : Elem) (es es' : List Elem) (y0 : List (Option V3)) (b : List Elem.Ray)
    (h : resize (e0 :: es) (y0 :: columns nwt l es b) = some es') :
    ∃ es'', es' = e0 :: es'' ∧ ∀ r ∈ b, Sys.rows nwt l true es'' r = Sys.rows nwt l false es r := by
  simp only [resize, List.tail_cons, Option.map_eq_some_iff] at h
  obtain ⟨es'', h, rfl⟩ := h
  refine ⟨es'', rfl, ?_⟩
  clear y0 e0
  induction es generalizing b es'' with
  | nil =>
    simp only [columns, List.zip_nil_right, List.map_nil, allSome] at h
    cases h
    intro r _
    rfl
  | cons e es ih =>
    simp only [columns, List.zip_cons_cons, List.map_cons, allSome, Option.bind_eq_some_iff,
      Option.map_eq_some_iff] at h
    obtain ⟨e', ⟨R, hR, rfl⟩, t, ht, rfl⟩ := h
    obtain ⟨-, hmax⟩ := maxRadius_spec hR
    intro r hr
    obtain ⟨y, hy, hle⟩ := hmax _ (List.mem_map_of_mem hr)
    have hs := step_clip_pass nwt l e R r y hy (inside_hypot hle)
    simp only [Sys.rows, hs]
    congr 1
    exact ih _ _ ht _ (List.mem_map_of_mem hr)

/-- C78: the new aperture of a surface is the smallest one: some ray of the bundle touches its edge. -/
theorem c78_tight (e0 : Elem) (es es' : List Elem) (ys : List (List (Option V3)))
    (h : resize (e0 :: es) ys = some es') (j : ℕ) (e' : Elem) (he : es'[j + 1]? = some e') :
    ∃ R y col, e'.radius = .fin R ∧ ys[j + 1]? = some col ∧ some y ∈ col ∧
      y.x ^ 2 + y.y ^ 2 = R ^ 2 ∧ 0 ≤ R := by
  simp only [resize, Option.map_eq_some_iff] at h
  obtain ⟨es'', h, rfl⟩ := h
  rw [List.getElem?_cons_succ] at he
  have h2 := allSome_mem h
  have h3 := congrArg (fun l => l[j]?) h2
  simp only [List.getElem?_map, he, Option.map_some, Option.map_eq_some_iff] at h3
  obtain ⟨p, hp, R, hR, rfl⟩ := h3
  obtain ⟨⟨y, hy, hyR⟩, -⟩ := maxRadius_spec hR
  refine ⟨R, y, p.2, rfl, ?_, hy, ?_, ?_⟩
  · rw [List.getElem?_zip_eq_some] at hp
    have := hp.2
    rw [List.getElem?_tail] at this
    exact this
  · rw [← hyR]; exact (Real.sq_sqrt (by positivity)).symm
  · rw [← hyR]; exact Real.sqrt_nonneg _

/-- C78: a single ray that misses a surface makes its new radius NaN. -/
theorem c78_nan (ys : List (Option V3)) (h : none ∈ ys) : maxRadius ys = none := by
  by_contra hne
  obtain ⟨R, hR⟩ := Option.ne_none_iff_exists'.mp hne
  obtain ⟨y, hy, -⟩ := (maxRadius_spec hR).2 none h
  cases hy

example (nwt : Shape.NewtonFn) (l : ℝ) : ∃ es', resize [exPlane, exPlane]
    ([some ⟨0, 0, 0⟩] :: columns nwt l [exPlane] [⟨some ⟨3, 4, 1⟩, some ⟨0, 0, 1⟩, 1⟩]) =
      some es' := by
  have h := plane_row nwt l exPlane_plane exPlane_axis ⟨3, 4, 1⟩ ⟨0, 0, 1⟩ 1
  rw [if_neg one_ne_zero, Option.map_eq_some_iff] at h
  obtain ⟨y, hy, -⟩ := h
  simp [resize, columns, maxRadius, hy, allSome]

end resize

/-! ## C77 -/

section opd

variable (nwt : Shape.NewtonFn) (l : ℝ)

theorem pyGet?_last {α : Type*} (p : List α) (a b : α) : pyGet? (p ++ [a, b]) (-1) = some b := by
  unfold pyGet?
  rw [if_neg (by decide), if_pos (by simp only [List.length_append, List.length_cons]; omega)]
  have : ((-1 : ℤ) + (p ++ [a, b]).length).toNat = p.length + 1 := by
    rw [List.length_append, List.length_cons, List.length_cons, List.length_nil]; omega
  rw [this, List.getElem?_append_right (by omega)]
  simp

theorem pyGet?_before {α : Type*} (p : List α) (a b : α) : pyGet? (p ++ [a, b]) (-2) = some a := by
  unfold pyGet?
  rw [if_neg (by decide), if_pos (by simp only [List.length_append, List.length_cons]; omega)]
  have : ((-2 : ℤ) + (p ++ [a, b]).length).toNat = p.length := by
    rw [List.length_append, List.length_cons, List.length_cons, List.length_nil]; omega
  rw [this, List.getElem?_append_right (by omega)]
  simp

theorem pySlice_before {α : Type*} (p : List α) (a b : α) :
    pySlice (p ++ [a, b]) 0 (some (-2 + 1)) = p ++ [a] := by
  have h1 : pyStop (p ++ [a, b]).length (some (-2 + 1)) = p.length + 1 := by
    simp only [pyStop, pyBound, List.length_append, List.length_cons, List.length_nil]
    rw [if_pos (by decide)]
    omega
  have h2 : pyBound (p ++ [a, b]).length 0 = 0 := by simp [pyBound]
  rw [pySlice, h1, h2, List.drop_zero]
  have : p ++ [a, b] = (p ++ [a]) ++ [b] := by simp
  rw [this, List.take_append_of_le_length (by simp), List.take_of_length_le (by simp)]

/-- The origins with a start. -/
noncomputable def origFrom (z : V3) : List Elem → List V3
  | [] => []
  | e :: es => (z + e.tf.offset) :: origFrom (z + e.tf.offset) es

theorem origins_eq (sys : List Elem) : Sys.origins sys = origFrom 0 sys := by
  have : ∀ z, ((sys.map fun e => e.tf.offset).scanl (· + ·) z).tail = origFrom z sys := by
    induction sys with
    | nil => intro z; rfl
    | cons e es ih =>
      intro z
      rw [List.map_cons, List.scanl_cons, List.tail_cons, origFrom, ← ih (z + e.tf.offset)]
      cases es.map fun e => e.tf.offset <;> simp
  exact this 0

theorem origFrom_concat (z : V3) (es : List Elem) (ea ei : Elem) :
    ∃ os o, origFrom z (es ++ [ea, ei]) = os ++ [o, o + ei.tf.offset] := by
  induction es generalizing z with
  | nil => exact ⟨[], z + ea.tf.offset, rfl⟩
  | cons e es ih =>
    obtain ⟨os, o, h⟩ := ih (z + e.tf.offset)
    exact ⟨(z + e.tf.offset) :: os, o, by rw [List.cons_append, origFrom, h]; rfl⟩

theorem allSome_append {α : Type*} (a b : List (Option α)) :
    allSome (a ++ b) = (allSome a).bind fun x => (allSome b).map (x ++ ·) := by
  induction a with
  | nil =>
    cases h : allSome b <;> simp [allSome, h]
  | cons x a ih =>
    cases x with
    | none => rfl
    | some x =>
      simp only [List.cons_append, allSome, Option.bind_some, ih]
      cases allSome a with
      | none => rfl
      | some a' => cases allSome b <;> rfl

/-- The optical path of a ray over all its rows. -/
noncomputable def fullPath (rows : List Row) : Option ℝ := (allSome (rows.map Row.t)).map List.sum

/-- The optical path from the object, measured for an object at infinity from the plane through the
start of the reference ray perpendicular to it. -/
noncomputable def pathFromObject (finite : Bool) (ref0 : Row) (rows : List Row) : Option ℝ :=
  (fullPath rows).bind fun L =>
    if finite then some L
    else rows[0]?.bind fun r0 => ref0.u.bind fun u => ref0.y.bind fun y => r0.y.map fun y0 =>
      L + r0.n * u.dot (y0 - y)

theorem sphere_point {R : ℝ} (hR : R ≠ 0) {y u : V3} (hu : u.dot u = 1) {t : ℝ}
    (h : toSphere R (y, u) = some t) : (y + t • u).dot (y + t • u) = R ^ 2 := by
  unfold toSphere at h
  rw [if_neg hR] at h
  simp only [Shape.interceptConic, sphere] at h
  have hc : (1 / R) ≠ 0 := one_div_ne_zero hR
  rw [if_neg hc] at h
  simp only [if_true, mul_one, if_neg hc] at h
  split at h
  · cases h
  rename_i hdisc
  simp only [Bool.false_eq_true, if_false, Option.some.injEq] at h
  set Y : V3 := y + ⟨0, 0, R⟩ with hY
  have hYx : Y.x = y.x := by simp [hY]
  have hYy : Y.y = y.y := by simp [hY]
  have hYz : Y.z = y.z + R := by simp [hY]
  have hu' : u.x ^ 2 + u.y ^ 2 + u.z ^ 2 = 1 := by simp only [V3.dot] at hu; linarith
  set D := (1 / R) * u.dot Y - u.z with hD
  set F := (1 / R) * (Y.x ^ 2 + Y.y ^ 2 + Y.z ^ 2) - 2 * Y.z with hF
  have hg := Real.sq_sqrt (not_lt.mp hdisc)
  set g := Real.sqrt (D ^ 2 - 1 / R * F)
  have ht : (1 / R) * t = -(D + g) := by rw [← h]; field_simp
  -- the quadratic equation
  have hq : (1 / R) * ((1 / R) * t ^ 2 + 2 * D * t + F) = 0 := by
    have : (1 / R) * ((1 / R) * t ^ 2 + 2 * D * t + F) =
        ((1 / R) * t + D) ^ 2 - (D ^ 2 - 1 / R * F) := by ring
    rw [this, ht, ← hg]; ring
  have hq' : (1 / R) * t ^ 2 + 2 * D * t + F = 0 := by
    rcases mul_eq_zero.mp hq with h | h
    · exact absurd h hc
    · exact h
  have hDR : R * D = u.dot Y - R * u.z := by rw [hD]; field_simp
  have hFR : R * F = (Y.x ^ 2 + Y.y ^ 2 + Y.z ^ 2) - 2 * R * Y.z := by rw [hF]; field_simp
  have hq2 : t ^ 2 + 2 * (R * D) * t + R * F = 0 := by
    have := congrArg (R * ·) hq'
    simp only [mul_zero] at this
    rw [← this]; field_simp
  rw [hDR, hFR, hYx, hYy, hYz] at hq2
  simp only [V3.dot, hYx, hYy, hYz] at hq2
  simp only [V3.dot, V3.add_x, V3.add_y, V3.add_z, V3.smul_x, V3.smul_y, V3.smul_z]
  linear_combination hq2 + t ^ 2 * hu'

/-- A ray through the centre of the sphere meets it at the distance of the radius before the centre. -/
theorem sphere_center {R : ℝ} (hR : R ≠ 0) {u : V3} (hu : u.dot u = 1) (τ : ℝ) :
    toSphere R ((-τ) • u, u) = some (τ - R) := by
  have hu' : u.x ^ 2 + u.y ^ 2 + u.z ^ 2 = 1 := by simp only [V3.dot] at hu; linarith
  have hc : (1 / R) ≠ 0 := one_div_ne_zero hR
  unfold toSphere
  rw [if_neg hR]
  simp only [Shape.interceptConic, sphere]
  rw [if_neg hc]
  simp only [if_true, mul_one, if_neg hc, V3.dot, V3.add_x, V3.add_y, V3.add_z, V3.smul_x, V3.smul_y,
    V3.smul_z, add_zero]
  have hD : (1 / R) * (u.x * (-τ * u.x) + u.y * (-τ * u.y) + u.z * (-τ * u.z + R)) - u.z =
      -(τ / R) := by
    field_simp
    linear_combination -τ * hu'
  have hF : (1 / R) * ((-τ * u.x) ^ 2 + (-τ * u.y) ^ 2 + (-τ * u.z + R) ^ 2) - 2 * (-τ * u.z + R) =
      τ ^ 2 / R - R := by
    field_simp
    linear_combination τ ^ 2 * hu'
  rw [hD, hF]
  have hdisc : (-(τ / R)) ^ 2 - 1 / R * (τ ^ 2 / R - R) = 1 := by field_simp; ring
  rw [hdisc, if_neg (by norm_num), Real.sqrt_one]
  simp only [Bool.false_eq_true, if_false]
  congr 1
  field_simp
  ring

/-- What `path` computes for a traced ray, after the default `after=-2, image=-1`. -/
theorem path_spec (es : List Elem) (ea ei : Elem) (s : Setup) (hsys : s.sys = es ++ [ea, ei])
    (hafter : s.after = -2) (himage : s.image = -1) (hR : s.radius ≠ 0) (yr : V3) (ref0 : Row)
    (pre : List Row) (a b : Row) (hb : b = (Elem.step nwt l false ei (Sys.rayOfRow ea a)).1)
    (yb i : V3) (hyb : b.y = some yb) (hi : b.i = some i) (hu : i.dot i = 1) (T : ℝ)
    (hT : path s yr ref0 (pre ++ [a, b]) = some T) :
    ∃ L σ, pathFromObject s.finite ref0 (pre ++ [a, b]) = some L ∧
      (yb + σ • i - yr).dot (yb + σ • i - yr) = s.radius ^ 2 ∧ T = L + σ * a.n ∧
      (yb = yr → σ = -s.radius) := by
  -- the last step
  have hbi : b.i = (Sys.rayOfRow ea a).u.map ei.tf.toNormal := by rw [hb]; rfl
  have hby : b.y = ((Sys.rayOfRow ea a).y.map fun y => ei.tf.toNormal (y - ei.tf.offset)).bind
      fun y => ((Sys.rayOfRow ea a).u.map ei.tf.toNormal).bind fun u =>
        (ei.intercept nwt y u).map fun t => y + t • u := by
    rw [hb, step_y nwt l false ei (Sys.rayOfRow ea a)]
  have hbt : b.t = ((Sys.rayOfRow ea a).y.map fun y => ei.tf.toNormal (y - ei.tf.offset)).bind fun y =>
      ((Sys.rayOfRow ea a).u.map ei.tf.toNormal).bind fun u =>
        (ei.intercept nwt y u).map fun t => t * a.n := by
    rw [hb]
    unfold Elem.step Elem.propagate Sys.rayOfRow
    cases a.y <;> cases a.u <;> cases ei.shape <;> simp
  unfold path at hT
  simp only [hsys, hafter, himage, pyGet?_last, pyGet?_before, Option.bind_some,
    Option.bind_eq_some_iff, Option.map_eq_some_iff] at hT
  obtain ⟨t, ht, tj, htj, oa, hoa, oi, hoi, yu, hyu, ti, hti, rfl⟩ := hT
  obtain ⟨os, o, ho⟩ := origFrom_concat 0 es ea ei
  rw [origins_eq, ho] at hoa hoi
  rw [pyGet?_before] at hoa
  rw [pyGet?_last] at hoi
  cases hoa
  cases hoi
  unfold toImage at hyu
  simp only [Option.bind_eq_some_iff, Option.map_eq_some_iff] at hyu
  obtain ⟨ya, hya, ua, hua, rfl⟩ := hyu
  have hsub : ea.tf.fromNormal ya + (oa - (oa + ei.tf.offset)) = ea.tf.fromNormal ya - ei.tf.offset := by
    ext <;> simp <;> ring
  rw [hsub] at hti
  simp only [Sys.rayOfRow, hya, hua, Option.map_some, Option.bind_some] at hbi hby hbt
  rw [hi] at hbi
  obtain rfl := Option.some.inj hbi
  rw [hyb] at hby
  set y0 := ei.tf.toNormal (ea.tf.fromNormal ya - ei.tf.offset)
  set i := ei.tf.toNormal (ea.tf.fromNormal ua)
  cases hint : ei.intercept nwt y0 i with
  | none => rw [hint] at hby; cases hby
  | some τ =>
  rw [hint] at hby hbt
  have hyb' : yb = y0 + τ • i := Option.some.inj hby
  have hbt' : b.t = some (τ * a.n) := hbt
  -- the path sums
  have hL : fullPath (pre ++ [a, b]) = some (t + τ * a.n) := by
    unfold pathTo at ht
    rw [pySlice_before] at ht
    simp only [Option.map_eq_some_iff] at ht
    obtain ⟨ts, hts, rfl⟩ := ht
    unfold fullPath
    have : (pre ++ [a, b]).map Row.t = (pre ++ [a]).map Row.t ++ [b.t] := by simp
    rw [this, allSome_append, hts, hbt']
    simp [allSome]
  refine ⟨t + τ * a.n - tj, ti - τ, ?_, ?_, by ring, ?_⟩
  · unfold pathFromObject
    rw [hL, Option.bind_some]
    obtain ⟨r0, hr0, htj⟩ := htj
    unfold inputPath at htj
    by_cases hf : s.finite
    · simp only [hf, if_true, Option.some.injEq] at htj ⊢
      rw [← htj]; ring
    · simp only [hf, Bool.false_eq_true, if_false, Option.bind_eq_some_iff,
        Option.map_eq_some_iff] at htj ⊢
      obtain ⟨u, hu, y, hy, y', hy', rfl⟩ := htj
      refine ⟨r0, hr0, u, hu, y, hy, y', hy', ?_⟩
      simp only [V3.dot, V3.sub_x, V3.sub_y, V3.sub_z]
      ring
  · have h1 := sphere_point hR hu hti
    rw [hyb']
    have h2 : y0 + τ • i + (ti - τ) • i - yr = y0 - yr + ti • i := by ext <;> simp <;> ring
    rw [h2, h1]
  · intro hyr
    have h2 : y0 - yr = (-τ) • i := by rw [← hyr, hyb']; ext <;> simp
    rw [h2, sphere_center hR hu] at hti
    have := Option.some.inj hti
    linarith

/-- C77: the optical path difference of a ray to the reference ray, in waves, is the difference of
their optical paths to the sphere around the image of the reference ray with the given radius: there
are signed distances `σ`, `σr` from the image points along the rays to points on the sphere with
`-wave * opd = (L + n σ) - (Lr + nr σr)`, `L` being the optical paths from the object (for an object at
infinity from a plane perpendicular to the reference ray) to the image.  For a ray that hits the image
of the reference ray the point on the sphere is the radius before the image. -/
theorem c77_opd (es : List Elem) (ea ei : Elem) (s : Setup) (hsys : s.sys = es ++ [ea, ei])
    (hafter : s.after = -2) (himage : s.image = -1) (hR : s.radius ≠ 0)
    (pre prer : List Row) (a b ar br : Row)
    (hb : b = (Elem.step nwt l false ei (Sys.rayOfRow ea a)).1)
    (hbr : br = (Elem.step nwt l false ei (Sys.rayOfRow ea ar)).1)
    (yb yr i ir : V3) (hyb : b.y = some yb) (hyr : br.y = some yr) (hi : b.i = some i)
    (hir : br.i = some ir) (hu : i.dot i = 1) (hur : ir.dot ir = 1) (v : ℝ)
    (hv : opd s (prer ++ [ar, br]) (pre ++ [a, b]) = some v) :
    ∃ ref0 L Lr σ, (prer ++ [ar, br])[0]? = some ref0 ∧
      pathFromObject s.finite ref0 (pre ++ [a, b]) = some L ∧
      pathFromObject s.finite ref0 (prer ++ [ar, br]) = some Lr ∧
      (yb + σ • i - yr).dot (yb + σ • i - yr) = s.radius ^ 2 ∧ (yb = yr → σ = -s.radius) ∧
      -s.wave * v = (L + σ * a.n) - (Lr - s.radius * ar.n) := by
  unfold opd at hv
  simp only [himage, pyGet?_last, Option.bind_some, hyr, Option.bind_eq_some_iff] at hv
  obtain ⟨ref0, h0, T, hT, Tr, hTr, hv⟩ := hv
  obtain ⟨L, σ, h1, h2, h3, h4⟩ := path_spec nwt l es ea ei s hsys hafter himage hR yr ref0 pre a b hb
    yb i hyb hi hu T hT
  obtain ⟨Lr, σr, r1, -, r3, r4⟩ := path_spec nwt l es ea ei s hsys hafter himage hR yr ref0 prer ar
    br hbr yr ir hyr hir hur Tr hTr
  refine ⟨ref0, L, Lr, σ, h0, h1, r1, h2, h4, ?_⟩
  split at hv
  · cases hv
  · rename_i hw
    have := Option.some.inj hv
    rw [← this, h3, r3, r4 rfl]
    field_simp
    ring

/-- C77: perfect imaging.  If a ray and the reference ray hit the same image point with equal optical
paths, in the same medium, the optical path difference is zero. -/
theorem c77_stigmatic (es : List Elem) (ea ei : Elem) (s : Setup) (hsys : s.sys = es ++ [ea, ei])
    (hafter : s.after = -2) (himage : s.image = -1) (hR : s.radius ≠ 0)
    (pre prer : List Row) (a b ar br : Row)
    (hb : b = (Elem.step nwt l false ei (Sys.rayOfRow ea a)).1)
    (hbr : br = (Elem.step nwt l false ei (Sys.rayOfRow ea ar)).1)
    (yr i ir : V3) (hyb : b.y = some yr) (hyr : br.y = some yr) (hi : b.i = some i)
    (hir : br.i = some ir) (hu : i.dot i = 1) (hur : ir.dot ir = 1) (hn : a.n = ar.n) (ref0 : Row)
    (h0 : (prer ++ [ar, br])[0]? = some ref0)
    (hL : pathFromObject s.finite ref0 (pre ++ [a, b]) =
      pathFromObject s.finite ref0 (prer ++ [ar, br])) (v : ℝ)
    (hv : opd s (prer ++ [ar, br]) (pre ++ [a, b]) = some v) : v = 0 := by
  obtain ⟨ref0', L, Lr, σ, e0, e1, e2, -, e4, e5⟩ := c77_opd nwt l es ea ei s hsys hafter himage hR pre
    prer a b ar br hb hbr yr yr i ir hyb hyr hi hir hu hur v hv
  rw [h0] at e0
  cases e0
  rw [hL, e2] at e1
  cases e1
  rw [e4 rfl, hn] at e5
  have hw : s.wave ≠ 0 := by
    intro hw
    unfold opd at hv
    simp only [Option.bind_eq_some_iff, hw, if_true] at hv
    obtain ⟨_, _, _, _, _, _, _, _, hv⟩ := hv
    cases hv
  have : s.wave * v = 0 := by linarith
  rcases mul_eq_zero.mp this with h | h
  · exact absurd h hw
  · exact h

/-- C77: the reference ray has no optical path difference. -/
theorem c77_reference (s : Setup) (ref : List Row) (v : ℝ) (hv : opd s ref ref = some v) : v = 0 := by
  unfold opd at hv
  simp only [Option.bind_eq_some_iff] at hv
  obtain ⟨_, _, _, _, T, hT, T', hT', hv⟩ := hv
  rw [hT] at hT'
  cases hT'
  split at hv
  · cases hv
  · cases hv; simp

/-- C77, violation: with `after=-1` the slice `self.t[:0]` is empty: the whole optical path up to the
last surface is ignored. -/
theorem c77_after_last_violation (rows : List Row) : pathTo rows (-1) = some 0 := by
  have : pySlice rows 0 (some (-1 + 1)) = [] := by
    simp [pySlice, pyStop, pyBound]
  rw [pathTo, this]
  rfl

/-! ### Example for C77 -/

/-- Surface before the image of the example. -/
noncomputable def exLens : Elem := ⟨Transform.update 0 ⟨0, 0, 1⟩ 0, .inf, none, none⟩
/-- The image plane of the example. -/
noncomputable def exImage : Elem := ⟨Transform.update 4 ⟨0, 0, 1⟩ 0, .inf, none, none⟩

/-- The row behind the lens of a ray that starts at height `h` towards the image point. -/
noncomputable def exRow (h : ℝ) : Row :=
  ⟨some ⟨h, 0, 0⟩, some ⟨-(h / 5), 0, 4 / 5⟩, 1, some ⟨0, 0, 1⟩, some 0⟩

/-- The setup of the example. -/
noncomputable def exSetup : Setup := ⟨[exLens, exLens, exImage], true, 2, -2, -1, 1 / 1000⟩

/-- Its rows. -/
noncomputable def exRows (h : ℝ) : List Row :=
  [exRow h, exRow h, (Elem.step nwt l false exImage (Sys.rayOfRow exLens (exRow h))).1]

/-- Two rays through the same image point: all hypotheses of `c77_stigmatic` hold. -/
example : opd exSetup (exRows nwt l 3) (exRows nwt l (-3)) = some 0 := by
  have hL : OnAxis 1 exLens.tf := onAxis_update 0 1 le_rfl (.inl rfl)
  have hI : OnAxis 1 exImage.tf := onAxis_update 4 1 (by norm_num) (.inl rfl)
  have hpl : IsPlane exImage := fun s h => by cases h
  have hd : exImage.tf.distance = 4 := by simp [exImage, Transform.update_distance]
  have hoff : exImage.tf.offset = ⟨0, 0, 4⟩ := by rw [hI.off, hd]; norm_num
  have hb : ∀ h, (Elem.step nwt l false exImage (Sys.rayOfRow exLens (exRow h))).1.y =
      some 0 := by
    intro h
    rw [step_y]
    simp only [Sys.rayOfRow, exRow, Option.map_some, Option.bind_some, hL.back, hI.into, hoff,
      intercept_plane nwt hpl, Shape.interceptPlane, V3.turn, V3.sub_x, V3.sub_y, V3.sub_z]
    norm_num
    ext <;> simp <;> ring
  have key : ∀ h, h ^ 2 = 9 → path exSetup 0 (exRow 3) (exRows nwt l h) = some 3 := by
    intro h hh
    have h1 := sphere_center (R := 2) (by norm_num) (u := ⟨-(h / 5), 0, 4 / 5⟩)
      (by simp only [V3.dot]; linarith) 5
    have h2 : ((-5 : ℝ) • (⟨-(h / 5), 0, 4 / 5⟩ : V3)) = ⟨h, 0, -4⟩ := by ext <;> simp <;> ring
    rw [h2] at h1
    have hp : exRows nwt l h = [exRow h] ++ [exRow h, (Elem.step nwt l false exImage
      (Sys.rayOfRow exLens (exRow h))).1] := rfl
    have hs : exSetup.sys = [exLens] ++ [exLens, exImage] := rfl
    obtain ⟨os, o, ho⟩ := origFrom_concat 0 [exLens] exLens exImage
    unfold path pathTo inputPath
    rw [origins_eq, hs, ho, hp]
    simp only [exSetup, pyGet?_before, pyGet?_last, pySlice_before, Option.bind_some]
    have hti : toImage exLens.tf exImage.tf o (o + exImage.tf.offset) 0 (exRow h) =
        some (⟨h, 0, -4⟩, ⟨-(h / 5), 0, 4 / 5⟩) := by
      simp only [toImage, exRow, Option.bind_some, Option.map_some, hL.back, hI.into, V3.turn, hoff]
      congr 2 <;> ext <;> simp
    rw [hti]
    simp only [Option.bind_some, h1, Option.map_some]
    norm_num [allSome, exRow]
  have h3 := key 3 (by norm_num)
  have h4 := key (-3) (by norm_num)
  have hl : pyGet? (exRows nwt l 3) (-1) =
      some (Elem.step nwt l false exImage (Sys.rayOfRow exLens (exRow 3))).1 :=
    pyGet?_last [exRow 3] _ _
  unfold opd
  simp only [exSetup] at hl h3 h4 ⊢
  rw [hl]
  simp only [Option.bind_some, hb]
  have h0 : (exRows nwt l 3)[0]? = some (exRow 3) := rfl
  rw [h0]
  simp only [Option.bind_some, h3, h4]
  norm_num

end opd

end RayOpt.Spot
