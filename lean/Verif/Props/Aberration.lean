import Verif.Props.Smooth
import Verif.Props.Wavefront

/-!
Property C93: the optical path difference of the code and its spots belong together: the slope of the
wavefront is the transverse aberration.
-/

namespace RayOpt.Spot

open V3 Elem Sys Filter Topology
open RayOpt.Glass (pyGet?)

/-- The path over all rows is the sum of their paths. -/
theorem fullPath_sum (rows : List Elem.Row) (t : ℕ → ℝ)
    (h : ∀ j < rows.length, ∃ b : Elem.Row, rows[j]? = some b ∧ b.t = some (t j)) :
    fullPath rows = some (∑ j ∈ Finset.range rows.length, t j) := by
  have : rows.map Elem.Row.t = (List.range rows.length).map fun j => some (t j) := by
    refine List.ext_getElem (by simp) fun j h1 h2 => ?_
    obtain ⟨b, hb, hbt⟩ := h j (by simpa using h1)
    rw [List.getElem?_eq_some_iff] at hb
    obtain ⟨hj, rfl⟩ := hb
    simp [hbt]
  rw [fullPath, this, allSome_map_some, Option.map_some]
  rfl

/-- C93: the wavefront of `opd` and the image points of a bundle.  The rays start from one point, or, for an
object at infinity, parallel to the reference ray.  Let `X` be the points of the rays on the reference sphere
around the image point `yr` of the reference ray, at the distances `σ` from their image points `p`.  If the
optical path difference `v` (in waves) changes by `v'` and the points on the sphere by `dX`, then the
distance of the image point from that of the reference ray has the component `wave v' σ / n` along `dX`. -/
theorem c93_opd {nwt : Shape.NewtonFn} {l : ℝ} {st : Setup} {s0 : ℝ} {p u : ℕ → ℝ → V3} {t : ℕ → ℝ → ℝ}
    {n : ℕ → ℝ} (hafter : st.after = -2) (himage : st.image = -1) (hR : st.radius ≠ 0)
    (B : Bundle nwt l false st.sys s0 p u t n) (k : ℕ) (hk : st.sys.length = k + 2) (dp du : ℕ → V3)
    (hp : ∀ j < st.sys.length, Curve (p j) (dp j) s0) (hu : ∀ j < st.sys.length, Curve (u j) (du j) s0)
    (out : ℝ → List Elem.Row)
    (hout : ∀ᶠ s in 𝓝 s0, ∃ arr : List Elem.Row, arr.length = st.sys.length ∧
      gtPropagate nwt st.sys l false 1 none arr = some (out s))
    (hrow : ∀ᶠ s in 𝓝 s0, ∀ j < st.sys.length, ∃ b : Elem.Row, (out s)[j]? = some b ∧ b.y = some (p j s) ∧
      b.u = some (u j s) ∧ b.n = n j ∧ b.t = some (t j s))
    (t0 : ℝ) (ht0 : ∀ᶠ s in 𝓝 s0, t 0 s = t0) (ref : List Elem.Row) (yr : V3) (ref0 : Elem.Row)
    (hyr : (pyGet? ref (-1)).bind Elem.Row.y = some yr) (href : ref[0]? = some ref0)
    (hstart : (st.finite = true ∧ dp 0 = 0) ∨ (st.finite = false ∧ ref0.u = some (u 0 s0)))
    (v : ℝ → ℝ) (hv : ∀ᶠ s in 𝓝 s0, opd st ref (out s) = some (v s)) (v' : ℝ) (hv' : HasDerivAt v v' s0) :
    ∃ (ea ei : Elem) (σ : ℝ → ℝ) (dX : V3), st.sys[k]? = some ea ∧ st.sys[k + 1]? = some ei ∧
      (∀ᶠ s in 𝓝 s0, (p (k + 1) s + σ s • ei.tf.toNormal (ea.tf.fromNormal (u k s)) - yr).dot
        (p (k + 1) s + σ s • ei.tf.toNormal (ea.tf.fromNormal (u k s)) - yr) = st.radius ^ 2) ∧
      Curve (fun s => p (k + 1) s + σ s • ei.tf.toNormal (ea.tf.fromNormal (u k s))) dX s0 ∧
      st.wave * v' = -(n k * (ei.tf.toNormal (ea.tf.fromNormal (u k s0))).dot dX) ∧
      st.wave * v' * σ s0 = n k * (p (k + 1) s0 - yr).dot dX := by
  have hk1 : k + 1 < st.sys.length := by omega
  set ea := st.sys[k]'(by omega) with hea
  set ei := st.sys[k + 1]'hk1 with hei
  obtain ⟨es, hes⟩ : ∃ es, st.sys = es ++ [ea, ei] := by
    refine ⟨st.sys.take k, ?_⟩
    refine List.ext_getElem? fun j => ?_
    rcases lt_trichotomy j k with h | h | h
    · rw [List.getElem?_append_left (by simp; omega), List.getElem?_take_of_lt h]
    · subst h
      rw [List.getElem?_append_right (by simp)]
      simp [hea, show j < st.sys.length by omega, show min j st.sys.length = j by omega]
    · rw [List.getElem?_append_right (by simp; omega)]
      rw [List.length_take, show min k st.sys.length = k by omega]
      obtain ⟨m, rfl⟩ : ∃ m, j = k + 1 + m := ⟨j - (k + 1), by omega⟩
      rw [show k + 1 + m - k = m + 1 by omega]
      cases m with
      | zero => simp [hei, hk1]
      | succ m => simp [hk]; omega
  -- the direction at the image
  obtain ⟨hi, -⟩ := Bundle.arriving (sys := st.sys) (p := p) (u := u) k hk1 (hp k (by omega)) (hu k (by omega))
  change Curve (fun s => ei.tf.toNormal (ea.tf.fromNormal (u k s))) _ s0 at hi
  set I : ℝ → V3 := fun s => ei.tf.toNormal (ea.tf.fromNormal (u k s)) with hI
  have hRi : Reachable ei.tf := B.placed _ (List.getElem_mem _)
  have hRa : Reachable ea.tf := B.placed _ (List.getElem_mem _)
  have hIu : ∀ᶠ s in 𝓝 s0, (I s).dot (I s) = 1 := by
    filter_upwards [B.units k (by omega)] with s h
    rw [hI, (c10_dot hRi _ _).2.1, (c10_dot hRa _ _).1, h]
  -- the optical path
  set L : ℝ → ℝ := fun s => t0 + ∑ j ∈ Finset.range (k + 1), t (j + 1) s +
    (if st.finite then 0 else n 0 * (u 0 s0).dot (p 0 s - ref0.y.getD 0)) with hL
  have hpath := c93_path B dp du hp hu (k + 1) hk1
  have hLd : HasDerivAt L (n k * (I s0).dot (dp (k + 1))) s0 := by
    have h2 := B.tangent k hk1 (hp (k + 1) hk1)
    rw [h2] at hpath
    rcases hstart with ⟨hf, h0⟩ | ⟨hf, h0⟩
    · have := hpath.const_add t0
      simp only [hL, hf, if_true, add_zero]
      refine this.congr_deriv ?_
      rw [h0]
      simp only [V3.dot, zero_x, zero_y, zero_z, mul_zero, add_zero, sub_zero]
      rfl
    · have h3 := ((Curve.const (u 0 s0)).dot ((hp 0 (by omega)).sub (Curve.const (ref0.y.getD 0)))).const_mul
        (n 0)
      have := (hpath.const_add t0).add h3
      simp only [hL, hf, Bool.false_eq_true, if_false]
      refine this.congr_deriv ?_
      simp only [V3.dot, zero_x, zero_y, zero_z, sub_x, sub_y, sub_z, hI]
      ring
  -- the reference
  have hw : st.wave ≠ 0 := by
    intro hw
    have h := hv.self_of_nhds
    unfold opd at h
    simp only [Option.bind_eq_some_iff, hw, if_true] at h
    obtain ⟨_, _, _, _, _, _, _, _, h⟩ := h
    cases h
  obtain ⟨Tr, hTr⟩ : ∃ Tr, path st yr ref0 ref = some Tr := by
    have h := hv.self_of_nhds
    unfold opd at h
    simp only [himage, hyr, href, Option.bind_some, Option.bind_eq_some_iff] at h
    obtain ⟨_, _, Tr, hTr, _⟩ := h
    exact ⟨Tr, hTr⟩
  have hnk := B.pos k (by omega)
  set σ : ℝ → ℝ := fun s => (Tr - st.wave * v s - L s) / n k with hσ
  have hσd := ((hv'.const_mul st.wave).const_sub Tr |>.sub hLd).div_const (n k)
  change HasDerivAt σ _ s0 at hσd
  have hX := (hp (k + 1) hk1).add (hi.smul hσd)
  have hsph : ∀ᶠ s in 𝓝 s0, (p (k + 1) s + σ s • I s - yr).dot (p (k + 1) s + σ s • I s - yr) =
      st.radius ^ 2 := by
    filter_upwards [hv, hout, hrow, ht0, hIu] with s h1 ⟨arr, hlen, h2⟩ h3 h4 h5
    have hlo : (out s).length = k + 2 := by
      rw [(gtPropagate_spec nwt l false hlen (le_refl 1) h2).1, hk]
    obtain ⟨a, ha, hay, hau, han, -⟩ := h3 k (by omega)
    obtain ⟨b, hb, hby, hbu, -, -⟩ := h3 (k + 1) (by omega)
    obtain ⟨x, hx, hx1⟩ := trace_succ hlen h2 k hk1
    rw [ha] at hx; cases hx
    rw [hb] at hx1
    have hbs := Option.some.inj hx1
    obtain ⟨pre, hpre⟩ : ∃ pre, out s = pre ++ [a, b] := by
      refine ⟨(out s).take k, ?_⟩
      refine List.ext_getElem? fun j => ?_
      rcases lt_trichotomy j k with h | h | h
      · rw [List.getElem?_append_left (by simp; omega), List.getElem?_take_of_lt h]
      · subst h
        rw [List.getElem?_append_right (by simp)]
        simp [ha, show min j (out s).length = j by omega]
      · rw [List.getElem?_append_right (by simp; omega)]
        rw [List.length_take, show min k (out s).length = k by omega]
        obtain ⟨m, rfl⟩ : ∃ m, j = k + 1 + m := ⟨j - (k + 1), by omega⟩
        rw [show k + 1 + m - k = m + 1 by omega]
        cases m with
        | zero => simp [hb]
        | succ m => simp [hlo]; omega
    unfold opd at h1
    simp only [himage, hyr, href, Option.bind_some, Option.bind_eq_some_iff] at h1
    obtain ⟨T, hT, Tr', hTr', h1⟩ := h1
    rw [hTr] at hTr'
    cases hTr'
    rw [if_neg hw] at h1
    have h1 := Option.some.inj h1
    rw [hpre] at hT
    have hbi : b.i = some (I s) := by
      rw [hbs]
      simp only [Elem.step, rayOfRow, hau, Option.map_some]
      rfl
    obtain ⟨L', σ', e1, e2, e3, -⟩ := path_spec nwt l es ea ei st hes hafter himage hR yr ref0 pre a b hbs
      (p (k + 1) s) (I s) hby hbi h5 T hT
    rw [← hpre] at e1
    have hLs : L' = L s := by
      unfold pathFromObject at e1
      rw [fullPath_sum (out s) (fun j => t j s) (by
        intro j hj
        obtain ⟨b, hb, _, _, _, hbt⟩ := h3 j (by omega)
        exact ⟨b, hb, hbt⟩), hlo, Option.bind_some] at e1
      simp only [Finset.sum_range_succ' _ (k + 1), h4] at e1
      rcases hstart with ⟨hf, h0⟩ | ⟨hf, h0⟩
      · rw [if_pos hf] at e1
        rw [← Option.some.inj e1, hL]
        simp only [hf, if_true]
        ring
      · rw [if_neg (by simp [hf])] at e1
        obtain ⟨c, hc, hcy, hcu, hcn, -⟩ := h3 0 (by omega)
        simp only [hc, h0, hcy, hcn, Option.bind_some, Option.map_some] at e1
        obtain ⟨y0, hy0, e1⟩ := Option.bind_eq_some_iff.mp e1
        rw [← Option.some.inj e1, hL]
        simp only [hf, hy0, Option.getD_some, Bool.false_eq_true, if_false]
        ring
    have : σ' = σ s := by
      rw [hσ]
      simp only
      rw [← h1, ← hLs, e3, han]
      field_simp
      ring
    rw [← this]
    exact e2
  have hperp := unit_curve hi hIu
  have h1 : st.wave * v' = -(n k * (I s0).dot (dp (k + 1) +
      (((-(st.wave * v') - n k * (I s0).dot (dp (k + 1))) / n k) • I s0 + σ s0 •
        ei.tf.toNormal (ea.tf.fromNormal (du k))))) := by
    have hI1 := hIu.self_of_nhds
    have e : ∀ (a b d : V3) (c e : ℝ), a.dot (b + (c • a + e • d)) = a.dot b + c * a.dot a + e * a.dot d := by
      intro a b d c e
      simp only [V3.dot, add_x, add_y, add_z, smul_x, smul_y, smul_z]; ring
    rw [e, hI1, hperp]
    field_simp
    ring
  refine ⟨ea, ei, σ, _, by simp [hea, show k < st.sys.length by omega], by simp [hei, hk1], hsph, hX, h1, ?_⟩
  have h2 := hX.sub (Curve.const yr)
  have h3 := h2.dot h2
  have h4 := h3.unique ((hasDerivAt_const s0 (st.radius ^ 2)).congr_of_eventuallyEq hsph)
  generalize hdX : (dp (k + 1) + (((-(st.wave * v') - n k * (I s0).dot (dp (k + 1))) / n k) • I s0 + σ s0 •
        ei.tf.toNormal (ea.tf.fromNormal (du k)))) = dX at h1 h4 ⊢
  rw [h1]
  simp only [V3.dot, sub_x, sub_y, sub_z, add_x, add_y, add_z, smul_x, smul_y, smul_z, zero_x, zero_y,
    zero_z] at h4 ⊢
  linear_combination (-(n k) / 2) * h4

/-! ### Example: rays from a point that diverge towards the image plane -/

open MalusExample

/-- The image plane, and the setup with a reference sphere that the rays hit. -/
noncomputable def exScreen : Elem := ⟨Transform.update 4 ⟨0, 0, 1⟩ 0, .inf, none, none⟩
noncomputable def exAberr : Setup := ⟨[exObject, exScreen], true, 3, -2, -1, 1 / 1000⟩

/-- Positions, directions and paths. -/
noncomputable def exHit : ℕ → ℝ → V3
  | 0 => fun _ => 0
  | _ => fun s => (4 / (exDir s).z) • exDir s - ⟨0, 0, 4⟩
noncomputable def exLen : ℕ → ℝ → ℝ
  | 0 => fun _ => 0
  | _ => fun s => 4 / (exDir s).z

/-- The rows of a ray. -/
noncomputable def exOut (s : ℝ) : List Elem.Row := [⟨some 0, some (exDir s), 1, none, some 0⟩,
  ⟨some (exHit 1 s), some (exDir s), 1, some (exDir s), some (4 / (exDir s).z)⟩]

theorem exScreen_step (nwt : Shape.NewtonFn) {s : ℝ} (hs : s ∈ Set.Ioo (-1 : ℝ) 1) :
    (step nwt 1 false exScreen ⟨some 0, some (exDir s), 1⟩).1 =
      ⟨some (exHit 1 s), some (exDir s), 1, some (exDir s), some (4 / (exDir s).z)⟩ := by
  have hA : OnAxis 1 exScreen.tf := onAxis_update 4 1 (by norm_num) (.inl rfl)
  have hoff : exScreen.tf.offset = ⟨0, 0, 4⟩ := by
    rw [hA.off]; simp [exScreen, Transform.update_distance]
  have hz := exDir_pos hs
  have hturn : ∀ v : V3, v.turn 1 = v := fun v => by ext <;> simp [V3.turn]
  have hint : exScreen.intercept nwt (0 - ⟨0, 0, 4⟩) (exDir s) = some (4 / (exDir s).z) := by
    simp only [Elem.intercept, exScreen, Shape.interceptPlane, if_neg hz.ne']
    simp
  have hp : ((0 : V3) - ⟨0, 0, 4⟩) + (4 / (exDir s).z) • exDir s = exHit 1 s := by
    ext <;> simp [exHit]; ring
  have hsh : exScreen.shape = none := rfl
  unfold Elem.step
  simp only [Option.map_some, hoff, hA.into, hturn, Elem.propagate, Option.bind_some, hint, hsh, hp, mul_one,
    Bool.false_eq_true, if_false]

theorem exOut_trace (nwt : Shape.NewtonFn) {s : ℝ} (hs : s ∈ Set.Ioo (-1 : ℝ) 1) :
    gtPropagate nwt exAberr.sys 1 false 1 none
      [⟨some 0, some (exDir s), 1, none, some 0⟩, ⟨none, none, 0, none, none⟩] = some (exOut s) := by
  have hO : OnAxis 1 exObject.tf := onAxis_update 0 1 le_rfl (.inl rfl)
  have hturn : ∀ v : V3, v.turn 1 = v := fun v => by ext <;> simp [V3.turn]
  have h0 : rayOfRow exObject ⟨some 0, some (exDir s), 1, none, some 0⟩ = ⟨some 0, some (exDir s), 1⟩ := by
    simp only [rayOfRow, Option.map_some, hO.back, hturn]
  change some (writeRows _ 1 (Sys.rows nwt 1 false [exScreen] (rayOfRow exObject _))) = _
  rw [h0]
  simp only [Sys.rows, exScreen_step nwt hs]
  rfl

theorem exAberr_bundle (nwt : Shape.NewtonFn) {s0 : ℝ} (hs : s0 ∈ Set.Ioo (-1 : ℝ) 1) :
    Bundle nwt 1 false exAberr.sys s0 exHit (fun _ => exDir) exLen fun _ => 1 where
  placed := by
    intro e he
    fin_cases he <;> exact reachable_update _ _ _
  index := by
    intro e he sh m hA hm
    fin_cases he <;> cases hA.1
  start := one_pos
  unit := by
    filter_upwards [isOpen_Ioo.mem_nhds hs] with s h using exDir_unit h
  rays := by
    filter_upwards [isOpen_Ioo.mem_nhds hs] with s h
    refine ⟨_, _, rfl, exOut_trace nwt h, ?_⟩
    intro j hj
    have : j < 2 := hj
    interval_cases j
    · exact ⟨_, rfl, rfl, rfl, rfl, fun h => absurd h (lt_irrefl 0)⟩
    · exact ⟨_, rfl, rfl, rfl, rfl, fun _ => rfl⟩
  sheet := by
    intro j hj sh m hA
    have : j + 1 < 2 := hj
    obtain rfl : j = 0 := by omega
    cases hA.1

theorem exOut_path {s : ℝ} (hs : s ∈ Set.Ioo (-1 : ℝ) 1) (hD : 7 / 16 < (exDir s).z ^ 2) :
    path exAberr 0 ⟨some 0, some (exDir 0), 1, none, some 0⟩ (exOut s) =
      some (4 * (exDir s).z - √(16 * (exDir s).z ^ 2 - 7)) := by
  have hL : OnAxis 1 exObject.tf := onAxis_update 0 1 le_rfl (.inl rfl)
  have hA : OnAxis 1 exScreen.tf := onAxis_update 4 1 (by norm_num) (.inl rfl)
  have hoff : exScreen.tf.offset = ⟨0, 0, 4⟩ := by
    rw [hA.off]; simp [exScreen, Transform.update_distance]
  have hturn : ∀ v : V3, v.turn 1 = v := fun v => by ext <;> simp [V3.turn]
  have hu := exDir_unit hs
  have hsys : exAberr.sys = [] ++ [exObject, exScreen] := rfl
  have hout : exOut s = [] ++ [⟨some 0, some (exDir s), 1, none, some 0⟩,
    ⟨some (exHit 1 s), some (exDir s), 1, some (exDir s), some (4 / (exDir s).z)⟩] := rfl
  obtain ⟨os, o, ho⟩ := origFrom_concat 0 [] exObject exScreen
  have ht : toImage exObject.tf exScreen.tf o (o + exScreen.tf.offset) 0
      ⟨some 0, some (exDir s), 1, none, some 0⟩ = some (⟨0, 0, -4⟩, exDir s) := by
    simp only [toImage, Option.bind_some, Option.map_some, hL.back, hA.into, hturn, hoff]
    congr 2; ext <;> simp
  have hsp : toSphere 3 (⟨0, 0, -4⟩, exDir s) = some (4 * (exDir s).z - √(16 * (exDir s).z ^ 2 - 7)) := by
    unfold toSphere
    rw [if_neg (by norm_num), interceptConic_eq _ _ _ (norm_eq_one hu) (by norm_num [sphere])]
    have hE : quadCoeff (1 / 3) 0 (exDir s) = 1 / 3 := by
      unfold quadCoeff
      simp only [V3.dot] at hu
      linear_combination (1 / 3) * hu
    simp only [sphere, hE]
    have hD' : ((1 / 3 : ℝ) * ((exDir s).x * ((⟨0, 0, -4⟩ : V3) + ⟨0, 0, 3⟩).x +
        (exDir s).y * ((⟨0, 0, -4⟩ : V3) + ⟨0, 0, 3⟩).y +
        (exDir s).z * ((⟨0, 0, -4⟩ : V3) + ⟨0, 0, 3⟩).z * (1 + 0)) - (exDir s).z) = -(4 / 3) * (exDir s).z := by
      simp; ring
    rw [hD']
    have hR : (-(4 / 3) * (exDir s).z) ^ 2 - 1 / 3 * (1 / 3 * (((⟨0, 0, -4⟩ : V3) + ⟨0, 0, 3⟩).x ^ 2 +
        ((⟨0, 0, -4⟩ : V3) + ⟨0, 0, 3⟩).y ^ 2 + ((⟨0, 0, -4⟩ : V3) + ⟨0, 0, 3⟩).z ^ 2 * (1 + 0)) -
        2 * ((⟨0, 0, -4⟩ : V3) + ⟨0, 0, 3⟩).z) = (1 / 3) ^ 2 * (16 * (exDir s).z ^ 2 - 7) := by
      simp; ring
    rw [hR, if_neg (by nlinarith), if_neg (by norm_num), Real.sqrt_mul (by norm_num),
      Real.sqrt_sq (by norm_num)]
    simp only [Bool.false_eq_true, if_false]
    congr 1
    ring
  unfold path pathTo inputPath
  rw [origins_eq, hsys, ho, hout]
  simp only [exAberr, pyGet?_before, pyGet?_last, pySlice_before, Option.bind_some, ht, hsp]
  simp [allSome]

/-- All hypotheses of `c93_opd` hold, for a ray with a transverse aberration. -/
example (nwt : Shape.NewtonFn) : ∃ (v σ : ℝ → ℝ) (v' : ℝ) (dX : V3),
    (∀ᶠ s in 𝓝 (3 / 5 : ℝ), opd exAberr (exOut 0) (exOut s) = some (v s)) ∧ HasDerivAt v v' (3 / 5) ∧
    exHit 1 (3 / 5) = ⟨3, 0, 0⟩ ∧ 1 / 1000 * v' * σ (3 / 5) = 1 * (exHit 1 (3 / 5) - 0).dot dX := by
  have hs : (3 / 5 : ℝ) ∈ Set.Ioo (-1 : ℝ) 1 := ⟨by norm_num, by norm_num⟩
  have h0 : (0 : ℝ) ∈ Set.Ioo (-1 : ℝ) 1 := ⟨by norm_num, by norm_num⟩
  have hz : (exDir (3 / 5)).z = 4 / 5 := by
    simp only [exDir]
    rw [show (1 : ℝ) - (3 / 5) ^ 2 = (4 / 5) ^ 2 by norm_num, Real.sqrt_sq (by norm_num)]
  have hz0 : (exDir 0).z = 1 := by simp [exDir]
  obtain ⟨w, hw⟩ := exDir_curve hs
  have hyr : exHit 1 0 = 0 := by
    ext <;> simp [exHit, hz0] <;> simp [exDir]
  set v : ℝ → ℝ := fun s => -((4 * (exDir s).z - √(16 * (exDir s).z ^ 2 - 7)) - 1) / (1 / 1000) with hv
  have hvd : DifferentiableAt ℝ v (3 / 5) := by
    have hd := hw.z.differentiableAt
    exact ((((hd.const_mul 4).sub ((((hd.pow 2).const_mul 16).sub_const 7).sqrt (by
        simp only [Pi.pow_apply, hz]; norm_num))).sub_const
      1).neg).div_const _
  have hev : ∀ᶠ s in 𝓝 (3 / 5 : ℝ), opd exAberr (exOut 0) (exOut s) = some (v s) := by
    have hc : ContinuousAt (fun s => (exDir s).z ^ 2) (3 / 5) := (hw.z.differentiableAt.pow 2).continuousAt
    filter_upwards [isOpen_Ioo.mem_nhds hs, hc.eventually (lt_mem_nhds (show (7 / 16 : ℝ) < (exDir (3 / 5)).z ^ 2 by
      rw [hz]; norm_num))] with s h1 h2
    have e1 := exOut_path h1 h2
    have e2 := exOut_path h0 (by rw [hz0]; norm_num)
    unfold opd
    have e3 : (pyGet? (exOut 0) exAberr.image).bind Elem.Row.y = some 0 := by
      rw [← hyr]; exact congrArg (Option.bind · Elem.Row.y) (pyGet?_last [] _ _)
    rw [e3]
    simp only [Option.bind_some, exOut, List.getElem?_cons_zero] at e1 e2 ⊢
    rw [e1, e2]
    have h9 : √(16 * (1 : ℝ) ^ 2 - 7) = 3 := by
      rw [show (16 * (1 : ℝ) ^ 2 - 7) = 3 ^ 2 by norm_num, Real.sqrt_sq (by norm_num)]
    simp only [Option.bind_some, exAberr, hv, hz0, h9]
    norm_num
  have hzd : DifferentiableAt ℝ (fun s => 4 / (exDir s).z) (3 / 5) :=
    (differentiableAt_const _).div hw.z.differentiableAt (by rw [hz]; norm_num)
  obtain ⟨dp, hdp⟩ : ∃ dp : ℕ → V3, ∀ j < 2, Curve (exHit j) (dp j) (3 / 5) := by
    obtain ⟨d, h1⟩ : ∃ d, Curve (exHit 1) d (3 / 5) := ⟨_, (Curve.smul hzd.hasDerivAt hw).sub (Curve.const _)⟩
    refine ⟨fun j => if j = 0 then 0 else d, fun j hj => ?_⟩
    obtain rfl | rfl : j = 0 ∨ j = 1 := by omega
    · exact Curve.const 0
    · exact h1
  obtain ⟨ea, ei, σ, dX, -, -, -, -, -, h⟩ := c93_opd (st := exAberr) rfl rfl (by norm_num [exAberr])
    (exAberr_bundle nwt hs) 0 rfl dp (fun _ => w) hdp (fun _ _ => hw) exOut
    (by filter_upwards [isOpen_Ioo.mem_nhds hs] with s h using ⟨_, rfl, exOut_trace nwt h⟩)
    (Eventually.of_forall fun s j hj => by
      have : j < 2 := hj
      interval_cases j
      · exact ⟨_, rfl, rfl, rfl, rfl, rfl⟩
      · exact ⟨_, rfl, rfl, rfl, rfl, rfl⟩) 0 (Eventually.of_forall fun _ => rfl) (exOut 0) 0
    ⟨some 0, some (exDir 0), 1, none, some 0⟩ (by
      rw [← hyr]; exact congrArg (Option.bind · Elem.Row.y) (pyGet?_last [] _ _)) rfl
    (.inl ⟨rfl, (hdp 0 (by norm_num)).unique (Curve.const 0)⟩) v hev _ hvd.hasDerivAt
  refine ⟨v, σ, _, dX, hev, hvd.hasDerivAt, ?_, h⟩
  ext <;> simp [exHit, hz] <;> norm_num [exDir]

end RayOpt.Spot
