import Verif.Lemmas.ParaxialTrace
import Verif.Props.GaussianModes
import Verif.Props.Angles

/-!
C40: first-order quantities; C41: refocus; C42: pupils are images of the stop.
-/

namespace RayOpt

open Matrix Parax Sys PTrace

/-- `v` is the slope after / before a medium with index `n`. -/
theorem qdiv_some {a b c : ℝ} (h : qdiv a b = some c) : b ≠ 0 ∧ c = a / b := by
  unfold qdiv at h
  split at h
  · cases h
  · rename_i hb; cases h; exact ⟨hb, rfl⟩

/-- Setting of C40: a paraxial trace of a system without roll whose first surface is upright. -/
structure Traced (sys : List Elem) (axis : Fin 2) (l : ℝ) (r0 : PRow) (rows : List PRow) : Prop where
  noRoll : NoRoll sys
  three : 3 ≤ sys.length
  upright : ∀ e, sys[1]? = some e → Upright e r0.n l
  trace : PTrace.trace sys axis l r0 = some rows

/-- A paraxial ray through the system: height `y1` on and slope `u0` (times index `n0`) before the
first surface, height `yk` on and slope `uk` (times index `nk`) after the last surface. -/
def Passes (sys : List Elem) (axis : Fin 2) (l n0 y1 u0 yk uk nk : ℝ) : Prop :=
  ∃ (w : PVec) (ow : List (PVec × ℝ)) (x1 xk : PVec × ℝ),
    propagateParaxial sys w n0 l 1 none = some ow ∧ ow[0]? = some x1 ∧
    ow[sys.length - 3]? = some xk ∧ x1.1 (.inl axis) = y1 ∧ w (.inr axis) = u0 ∧
    xk.1 (.inl axis) = yk ∧ xk.1 (.inr axis) = uk ∧ xk.2 = nk

/-- The values returned by the trace in terms of the unimodular map of the system. -/
theorem firstOrder_key {sys : List Elem} {axis : Fin 2} {l : ℝ} {r0 : PRow} {rows : List PRow}
    (h : Traced sys axis l r0 rows) :
    ∃ (r1 rk : PRow) (A B C D : ℝ), ends rows = some (r0, r1, rk) ∧ A * D - B * C = 1 ∧
      (∀ f, focalLength rows = some f → C ≠ 0 ∧ lagrange r0 ≠ 0 ∧
        f = (rk.n / C, -r0.n / C)) ∧
      (∀ d, focalDistance rows = some d → C ≠ 0 ∧ r0.n ≠ 0 ∧ rk.n ≠ 0 ∧
        d = (D / C, -A / C)) ∧
      (∀ y1 u0 yk uk nk, Passes sys axis l r0.n y1 u0 yk uk nk →
        nk = rk.n ∧ yk = A * y1 + B * u0 ∧ uk = C * y1 + D * u0) := by
  obtain ⟨r1, rk, d, A, B, C, D, hends, hdet, hk, hw⟩ :=
    ends_map h.noRoll h.three h.upright h.trace
  obtain ⟨p1, p2, p3⟩ := hk 0
  obtain ⟨q1, q2, q3⟩ := hk 1
  have hden : r0.u 1 * rk.u 0 - r0.u 0 * rk.u 1 = -C * lagrange r0 := by
    unfold lagrange
    rw [p3, q3, p1, q1]; ring
  have hF : ∀ f, focalLength rows = some f → C ≠ 0 ∧ lagrange r0 ≠ 0 ∧
      f = (rk.n / C, -r0.n / C) := by
    intro f hf
    unfold focalLength at hf
    rw [hends] at hf
    simp only [Option.bind_some, Option.map_eq_some_iff] at hf
    obtain ⟨g, hg, rfl⟩ := hf
    obtain ⟨h1, rfl⟩ := qdiv_some hg
    rw [hden] at h1
    have hC : C ≠ 0 := fun h0 => h1 (by rw [h0]; ring)
    have hL : lagrange r0 ≠ 0 := fun h0 => h1 (by rw [h0]; ring)
    refine ⟨hC, hL, ?_⟩
    rw [hden]
    apply Prod.ext <;> simp only <;> field_simp
  refine ⟨r1, rk, A, B, C, D, hends, hdet, hF, ?_, ?_⟩
  · intro dd hd
    unfold focalDistance at hd
    rw [hends] at hd
    simp only [Option.bind_some, Option.bind_eq_some_iff, Option.map_eq_some_iff] at hd
    obtain ⟨f, hf, a1, ha1, a, ha, b1, hb1, b, hb, rfl⟩ := hd
    obtain ⟨hC, hL, rfl⟩ := hF f hf
    obtain ⟨_, rfl⟩ := qdiv_some ha1
    obtain ⟨hnk, rfl⟩ := qdiv_some ha
    obtain ⟨_, rfl⟩ := qdiv_some hb1
    obtain ⟨hn0, rfl⟩ := qdiv_some hb
    refine ⟨hC, hn0, hnk, ?_⟩
    have e1 : r1.y 1 * rk.u 0 - r1.y 0 * rk.u 1 = D * lagrange r0 := by
      unfold lagrange
      rw [p3, q3, p1, q1]; ring
    have e2 : rk.y 1 * r0.u 0 - rk.y 0 * r0.u 1 = A * lagrange r0 := by
      unfold lagrange
      rw [p2, q2, p1, q1]; ring
    rw [e1, e2]
    apply Prod.ext <;> simp only <;> field_simp
  · rintro y1 u0 yk uk nk ⟨w, ow, x1, xk, how, hx1, hxk, rfl, rfl, rfl, rfl, rfl⟩
    obtain ⟨x1', xk', g1, g2, g3, g4, g5, g6⟩ := hw w ow how
    rw [hx1] at g1; cases g1
    rw [hxk] at g2; cases g2
    exact ⟨g3, g5, g6⟩

section
variable {sys : List Elem} {axis : Fin 2} {l : ℝ} {r0 : PRow} {rows : List PRow}

/-- C40, focal points in air: every ray that enters parallel to the axis crosses the axis at the
back focal distance behind the last surface; every ray through the front focal point leaves
parallel to the axis. -/
theorem c40_focal_points (h : Traced sys axis l r0 rows) (d : ℝ × ℝ)
    (hd : focalDistance rows = some d) (y1 u0 yk uk : ℝ)
    (hr : Passes sys axis l r0.n y1 u0 yk uk 1) (hair : r0.n = 1) :
    (u0 = 0 → yk + d.2 * uk = 0) ∧ (y1 + d.1 * (u0 / r0.n) = 0 → uk = 0) := by
  obtain ⟨r1, rk, A, B, C, D, _, hdet, _, hD, hP⟩ := firstOrder_key h
  rw [hair, div_one]
  obtain ⟨hC, _, _, rfl⟩ := hD d hd
  obtain ⟨hn, hy, hu⟩ := hP _ _ _ _ _ hr
  subst hy hu
  simp only
  constructor
  · rintro rfl; field_simp; ring
  · intro h0
    have : y1 = -(D / C * u0) := by linarith
    rw [this]; field_simp; ring

/-- C40, focal lengths for equal media on both sides: a ray entering parallel at height `y1` leaves
with slope `-y1/f'`; a ray leaving parallel at height `yk` entered with slope `-yk/f`. -/
theorem c40_focal_length (h : Traced sys axis l r0 rows) (f : ℝ × ℝ)
    (hf : focalLength rows = some f) (y1 u0 yk uk nk : ℝ)
    (hr : Passes sys axis l r0.n y1 u0 yk uk nk) (hn : r0.n = nk) (hnz : nk ≠ 0) :
    (u0 = 0 → uk / nk = -y1 / f.2) ∧ (uk = 0 → u0 / r0.n = -yk / f.1) := by
  obtain ⟨r1, rk, A, B, C, D, _, hdet, hF, _, hP⟩ := firstOrder_key h
  obtain ⟨hC, _, rfl⟩ := hF f hf
  obtain ⟨rfl, hy, hu⟩ := hP _ _ _ _ _ hr
  simp only [hn]
  constructor
  · rintro rfl; rw [hu]; field_simp; ring
  · intro h0
    rw [hu] at h0
    have e : C * yk = -u0 := by
      rw [hy]; linear_combination A * h0 - u0 * hdet
    field_simp
    linear_combination e

/-- C40, focal lengths in general media: the code divides by the wrong one of the two indices; the
back focal length is the true one times `n0/nk`, the front focal length the true one times
`nk/n0`. -/
theorem c40_focal_length_media (h : Traced sys axis l r0 rows) (f : ℝ × ℝ)
    (hf : focalLength rows = some f) (y1 u0 yk uk nk : ℝ)
    (hr : Passes sys axis l r0.n y1 u0 yk uk nk) (hn0 : r0.n ≠ 0) (hnk : nk ≠ 0) :
    (u0 = 0 → uk / nk = -y1 / (f.2 * nk / r0.n)) ∧
    (uk = 0 → u0 / r0.n = -yk / (f.1 * r0.n / nk)) := by
  obtain ⟨r1, rk, A, B, C, D, _, hdet, hF, _, hP⟩ := firstOrder_key h
  obtain ⟨hC, _, rfl⟩ := hF f hf
  obtain ⟨rfl, hy, hu⟩ := hP _ _ _ _ _ hr
  simp only
  constructor
  · rintro rfl; rw [hu]; field_simp; ring
  · intro h0
    rw [hu] at h0
    have e : C * yk = -u0 := by
      rw [hy]; linear_combination A * h0 - u0 * hdet
    field_simp
    linear_combination e

/-- C40, focal points in general media: the code returns the distances divided by the index of the
medium they are measured in. -/
theorem c40_focal_points_media (h : Traced sys axis l r0 rows) (d : ℝ × ℝ)
    (hd : focalDistance rows = some d) (y1 u0 yk uk nk : ℝ)
    (hr : Passes sys axis l r0.n y1 u0 yk uk nk) :
    (u0 = 0 → yk + nk * d.2 * (uk / nk) = 0) ∧
    (y1 + r0.n * d.1 * (u0 / r0.n) = 0 → uk = 0) := by
  obtain ⟨r1, rk, A, B, C, D, _, hdet, _, hD, hP⟩ := firstOrder_key h
  obtain ⟨hC, hn0, hnk, rfl⟩ := hD d hd
  obtain ⟨rfl, hy, hu⟩ := hP _ _ _ _ _ hr
  subst hy hu
  simp only
  constructor
  · rintro rfl; field_simp; ring
  · intro h0
    have : y1 = -(D / C * u0) := by
      have e : r0.n * (D / C) * (u0 / r0.n) = D / C * u0 := by field_simp
      rw [e] at h0; linarith
    rw [this]; field_simp; ring

/-- C40, principal planes in air: every ray leaves the back principal plane at the height at which
it meets the front principal plane. -/
theorem c40_principal (h : Traced sys axis l r0 rows) (p : ℝ × ℝ)
    (hp : principalDistance rows = some p) (y1 u0 yk uk : ℝ)
    (hr : Passes sys axis l r0.n y1 u0 yk uk 1) (hair : r0.n = 1) :
    yk + p.2 * uk = y1 + p.1 * u0 := by
  obtain ⟨r1, rk, A, B, C, D, _, hdet, hF, hD, hP⟩ := firstOrder_key h
  unfold principalDistance at hp
  simp only [Option.bind_eq_some_iff, Option.map_eq_some_iff] at hp
  obtain ⟨d, hd, f, hf, rfl⟩ := hp
  obtain ⟨hC, _, _, rfl⟩ := hD d hd
  obtain ⟨_, _, rfl⟩ := hF f hf
  obtain ⟨hn, hy, hu⟩ := hP _ _ _ _ _ hr
  subst hy hu
  simp only [hair, ← hn]
  field_simp
  linear_combination -u0 * hdet

/-- C40, nodal points in air: a ray through the front nodal point leaves through the back nodal
point with unchanged slope. -/
theorem c40_nodal (h : Traced sys axis l r0 rows) (p : ℝ × ℝ)
    (hp : nodalDistance rows = some p) (y1 u0 yk uk : ℝ)
    (hr : Passes sys axis l r0.n y1 u0 yk uk 1) (hair : r0.n = 1) (hin : y1 + p.1 * u0 = 0) :
    uk = u0 ∧ yk + p.2 * uk = 0 := by
  obtain ⟨r1, rk, A, B, C, D, _, hdet, hF, hD, hP⟩ := firstOrder_key h
  unfold nodalDistance at hp
  simp only [Option.bind_eq_some_iff, Option.map_eq_some_iff] at hp
  obtain ⟨f, hf, d, hd, rfl⟩ := hp
  obtain ⟨hC, _, _, rfl⟩ := hD d hd
  obtain ⟨_, _, rfl⟩ := hF f hf
  obtain ⟨hn, hy, hu⟩ := hP _ _ _ _ _ hr
  simp only [hair, ← hn] at hin ⊢
  have hin' : C * y1 = u0 - D * u0 := by
    field_simp at hin; linear_combination hin
  have huk : uk = u0 := by rw [hu]; linear_combination hin'
  refine ⟨huk, ?_⟩
  rw [huk, hy]
  field_simp
  linear_combination A * hin' - u0 * hdet

/-- C40: the statements above are about rays of every height and slope. -/
theorem c40_rays_exist (h : Traced sys axis l r0 rows) (y1 u0 : ℝ) :
    ∃ yk uk nk, Passes sys axis l r0.n y1 u0 yk uk nk := by
  obtain ⟨r1, rk, d, A, B, C, D, hends, hdet, hk, hw⟩ :=
    ends_map h.noRoll h.three h.upright h.trace
  obtain ⟨m, c, hm, _⟩ := trace_columns h.trace
  have hm' := hm
  unfold propagateParaxial at hm'
  obtain ⟨ow, how, _⟩ := scan_pair l _ r0.n _ (Sum.elim (fun _ => y1 - d * u0) (fun _ => u0)) m hm'
  obtain ⟨x1, xk, g1, g2, g3, g4, g5, g6⟩ := hw _ ow how
  refine ⟨_, _, _, _, ow, x1, xk, how, g1, g2, ?_, rfl, rfl, rfl, rfl⟩
  rw [g4]; simp

end

/-! ## The last element is a plane without power -/

/-- A row after a distance `d` in its medium. -/
noncomputable def shiftRow (r : PRow) (d : ℝ) : PRow := ⟨r.n, fun k => r.y k + d / r.n * r.u k, r.u⟩

theorem propagate_marksPlane {e : Elem} (h : MarksPlane e) (v : PVec) (n l : ℝ) :
    e.propagateParaxial v n l =
      if n = 0 then none else some (transfer e.tf.distance n *ᵥ v, n) := by
  unfold Elem.propagateParaxial
  by_cases hn : n = 0
  · simp [hn, Elem.paraxialMatrix]
  · rw [if_neg hn, marksPlane_matrix h hn]; rfl

theorem transfer_mulVec (d n : ℝ) (v : PVec) (a : Fin 2) :
    (transfer d n *ᵥ v) (.inl a) = v (.inl a) + d / n * v (.inr a) ∧
    (transfer d n *ᵥ v) (.inr a) = v (.inr a) := by
  have := (transfer_decoupled d n).mulVec v a
  rw [this.1, this.2]
  fin_cases a <;> simp [transfer]

/-- Tracing to a plane without power appends the last row moved by the distance. -/
theorem trace_snoc (pre : List Elem) (hpre : pre ≠ []) (e : Elem) (he : MarksPlane e) (axis : Fin 2)
    (l : ℝ) (r0 : PRow) :
    PTrace.trace (pre ++ [e]) axis l r0 = (PTrace.trace pre axis l r0).bind fun rp =>
      rp.getLast?.bind fun rk =>
        if rk.n = 0 then none else some (rp ++ [shiftRow rk e.tf.distance]) := by
  have htail : (pre ++ [e]).tail = pre.tail ++ [e] := List.tail_append_of_ne_nil hpre
  unfold PTrace.trace rowsFrom propagateParaxial
  rw [pySlice_one, pySlice_one, htail, scanM_append, scanM_append]
  cases hm : scanM (fun e s => e.propagateParaxial s.1 s.2 l) pre.tail (column r0 0, r0.n) with
  | none => simp
  | some m =>
    obtain ⟨c, hc, hmc⟩ := scan_pair l _ _ _ (column r0 1) m hm
    rw [hc]
    simp only [Option.bind_some, Option.map_some]
    have key : ∃ sm sc : PVec × ℝ, m.getLast?.getD (column r0 0, r0.n) = sm ∧
        c.getLast?.getD (column r0 1, r0.n) = sc ∧ sm.2 = sc.2 ∧
        (r0 :: List.zipWith (row axis) m c).getLast? = some (row axis sm sc) := by
      induction m using List.reverseRecOn with
      | nil =>
        have : c = [] := by simpa using hmc.symm
        subst this
        refine ⟨_, _, rfl, rfl, rfl, ?_⟩
        simp only [List.zipWith_nil_left, List.getLast?_singleton, List.getLast?_nil,
          Option.getD_none]
        congr 1
        cases r0
        simp only [PTrace.row, column, Sum.elim_inl, Sum.elim_inr]
        congr 1 <;> (funext k; fin_cases k <;> rfl)
      | append_singleton m x _ =>
        rcases List.eq_nil_or_concat c with rfl | ⟨c', y, rfl⟩
        · simp at hmc
        · rw [List.concat_eq_append] at hmc ⊢
          simp only [List.map_append, List.map_cons, List.map_nil] at hmc
          have h1 := List.append_inj_left' hmc rfl
          have h2 := List.append_inj_right' hmc rfl
          have hl : m.length = c'.length := by simpa using congrArg List.length h1
          refine ⟨x, y, by simp, by simp, by simpa using h2, ?_⟩
          rw [List.zipWith_append hl, ← List.cons_append, List.zipWith_cons_cons,
            List.zipWith_nil_left, List.getLast?_append]
          rfl
    obtain ⟨sm, sc, e1, e2, e3, e4⟩ := key
    rw [e1, e2, e4]
    simp only [Option.bind_some]
    simp only [scanM, propagate_marksPlane he]
    by_cases hn : sm.2 = 0
    · have hr : (PTrace.row axis sm sc).n = 0 := hn
      rw [if_pos hn, if_pos hr]; simp
    · have hn' : ¬ sc.2 = 0 := by rw [← e3]; exact hn
      have hr : ¬ (PTrace.row axis sm sc).n = 0 := hn
      rw [if_neg hn, if_neg hn', if_neg hr]
      simp only [Option.bind_some, Option.map_some]
      have hl : m.length = c.length := by simpa using congrArg List.length hmc
      rw [List.zipWith_append hl]
      congr 2
      rw [List.zipWith_cons_cons, List.zipWith_nil_left]
      congr 2
      unfold PTrace.row shiftRow
      simp only
      congr 1
      · funext k
        fin_cases k
        · simpa using (transfer_mulVec e.tf.distance sm.2 sm.1 axis).1
        · rw [e3]; simpa using (transfer_mulVec e.tf.distance sc.2 sc.1 axis).1
      · funext k
        fin_cases k
        · simpa using (transfer_mulVec e.tf.distance sm.2 sm.1 axis).2
        · simpa using (transfer_mulVec e.tf.distance sc.2 sc.1 axis).2

theorem trace_length {sys : List Elem} {axis : Fin 2} {l : ℝ} {r0 : PRow} {rows : List PRow}
    (hne : sys ≠ []) (h : PTrace.trace sys axis l r0 = some rows) : rows.length = sys.length := by
  obtain ⟨m, c, _, _, h1, h2, rfl⟩ := trace_columns h
  have := List.length_pos_iff.mpr hne
  simp [h1, h2]; omega

/-! ## C41 -/

theorem setDistance_distance (t : Transform) (d : ℝ) : (t.setDistance d).distance = |d| :=
  Transform.update_distance _ _ _

theorem setDistance_marksPlane {e : Elem} (h : MarksPlane e) (d : ℝ) :
    MarksPlane { e with tf := e.tf.setDistance d } := by
  unfold MarksPlane at h ⊢
  cases hs : e.shape with
  | none => trivial
  | some sh =>
    rw [hs] at h
    simp only [Elem.mat] at h ⊢
    have : (e.tf.setDistance d).angles = e.tf.angles := Transform.update_angles _ _ _
    rw [this]
    exact h

/-- What `refocus` does to the system and to the next trace. -/
theorem refocus_spec (pre : List Elem) (hpre : pre ≠ []) (e : Elem) (he : MarksPlane e)
    (axis : Fin 2) (l : ℝ) (r0 : PRow) (rows : List PRow)
    (ht : PTrace.trace (pre ++ [e]) axis l r0 = some rows) (sys' : List Elem)
    (h : PTrace.refocus (pre ++ [e]) rows = some sys') :
    ∃ (rk : PRow) (d : ℝ) (rp : List PRow), rows[rows.length - 2]? = some rk ∧ rk.u 0 ≠ 0 ∧
      rk.n ≠ 0 ∧ d = -rk.n * rk.y 0 / rk.u 0 ∧
      sys' = pre ++ [{ e with tf := e.tf.setDistance d }] ∧ rp.length = pre.length ∧
      rows.take pre.length = rp ∧
      PTrace.trace sys' axis l r0 = some (rp ++ [shiftRow rk |d|]) := by
  have hlen := trace_length (by simp) ht
  have hplen := List.length_pos_iff.mpr hpre
  rw [trace_snoc pre hpre e he] at ht
  simp only [Option.bind_eq_some_iff] at ht
  obtain ⟨rp, hrp, rk, hrk, ht⟩ := ht
  split at ht
  · cases ht
  rename_i hn
  cases ht
  have hrpl := trace_length hpre hrp
  have hget : (rp ++ [shiftRow rk e.tf.distance])[(rp ++ [shiftRow rk e.tf.distance]).length - 2]?
      = some rk := by
    rw [List.getElem?_append_left (by simp; omega), ← hrk, List.getLast?_eq_getElem?]
    simp
  unfold PTrace.refocus at h
  rw [if_neg (by rw [List.length_append]; simp only [List.length_singleton]; omega), hget] at h
  simp only [Option.bind_some, Option.bind_eq_some_iff, Option.map_eq_some_iff] at h
  obtain ⟨d, hd, e', he', rfl⟩ := h
  obtain ⟨hu, rfl⟩ := qdiv_some hd
  have : e' = e := by
    have : (pre ++ [e])[(pre ++ [e]).length - 1]? = some e := by simp
    rw [this] at he'; cases he'; rfl
  subst this
  have hset : (pre ++ [e']).set ((pre ++ [e']).length - 1)
      { e' with tf := e'.tf.setDistance (-rk.n * rk.y 0 / rk.u 0) }
      = pre ++ [{ e' with tf := e'.tf.setDistance (-rk.n * rk.y 0 / rk.u 0) }] := by
    simp
  refine ⟨rk, _, rp, hget, hu, hn, rfl, hset, hrpl, by rw [← hrpl]; simp, ?_⟩
  rw [hset, trace_snoc pre hpre _ (setDistance_marksPlane he _), hrp]
  simp only [Option.bind_some, hrk]
  rw [if_neg hn, setDistance_distance]

/-- C41: after `refocus` only the distance of the last element has changed, all rows before the last
are as before, and the marginal ray has height zero on the image surface, provided the focus lies
behind the last surface. -/
theorem c41_refocus (pre : List Elem) (hpre : pre ≠ []) (e : Elem) (he : MarksPlane e)
    (axis : Fin 2) (l : ℝ) (r0 : PRow) (rows : List PRow)
    (ht : PTrace.trace (pre ++ [e]) axis l r0 = some rows) (sys' : List Elem)
    (h : PTrace.refocus (pre ++ [e]) rows = some sys') (rk : PRow)
    (hrk : rows[rows.length - 2]? = some rk) (hreal : rk.y 0 / (rk.u 0 / rk.n) ≤ 0) :
    (∃ tf, sys' = pre ++ [{ e with tf := tf }] ∧ tf.angles = e.tf.angles) ∧
    ∃ rows' last, PTrace.trace sys' axis l r0 = some (rows' ++ [last]) ∧
      rows' = rows.take pre.length ∧ last.y 0 = 0 ∧ last.u = rk.u ∧ last.n = rk.n := by
  obtain ⟨rk', d, rp, h1, h2, h3, h4, h5, h6, h7, h8⟩ := refocus_spec pre hpre e he axis l r0 rows
    ht sys' h
  rw [hrk] at h1; cases h1
  refine ⟨⟨_, h5, Transform.update_angles _ _ _⟩, rp, _, h8, h7.symm, ?_, rfl, rfl⟩
  have hd : 0 ≤ d := by
    have : d = -(rk.y 0 / (rk.u 0 / rk.n)) := by rw [h4]; field_simp
    rw [this]; linarith
  simp only [shiftRow]
  rw [abs_of_nonneg hd, h4]
  field_simp
  ring

/-- C41, the excluded case: if the focus lies before the last surface, the distance setter drops the
sign and the marginal ray ends up at twice its height on the last surface instead of zero. -/
theorem c41_virtual_violation (pre : List Elem) (hpre : pre ≠ []) (e : Elem) (he : MarksPlane e)
    (axis : Fin 2) (l : ℝ) (r0 : PRow) (rows : List PRow)
    (ht : PTrace.trace (pre ++ [e]) axis l r0 = some rows) (sys' : List Elem)
    (h : PTrace.refocus (pre ++ [e]) rows = some sys') (rk : PRow)
    (hrk : rows[rows.length - 2]? = some rk) (hvirt : 0 < rk.y 0 / (rk.u 0 / rk.n)) :
    ∃ rows' last, PTrace.trace sys' axis l r0 = some (rows' ++ [last]) ∧
      last.y 0 = 2 * rk.y 0 ∧ last.y 0 ≠ 0 := by
  obtain ⟨rk', d, rp, h1, h2, h3, h4, h5, h6, h7, h8⟩ := refocus_spec pre hpre e he axis l r0 rows
    ht sys' h
  rw [hrk] at h1; cases h1
  have hd : d < 0 := by
    have : d = -(rk.y 0 / (rk.u 0 / rk.n)) := by rw [h4]; field_simp
    rw [this]; linarith
  have hy : rk.y 0 ≠ 0 := by
    intro h0; rw [h0] at hvirt; simp at hvirt
  have e : (shiftRow rk |d|).y 0 = 2 * rk.y 0 := by
    simp only [shiftRow]
    rw [abs_of_neg hd, h4]
    field_simp
    ring
  exact ⟨rp, _, h8, e, by rw [e]; simpa using hy⟩

/-! ## C40: magnification and pupils -/

/-- C40: if the marginal ray starts on the axis and the image plane is where it meets the axis
again, the image height of the chief ray is the transverse magnification times its object
height. -/
theorem c40_magnification (pre : List Elem) (hpre : pre ≠ []) (e : Elem) (he : MarksPlane e)
    (hes : NoRoll (pre ++ [e])) (axis : Fin 2) (l : ℝ) (r0 : PRow) (rows : List PRow)
    (ht : PTrace.trace (pre ++ [e]) axis l r0 = some rows) (mm : ℝ × ℝ)
    (hm : magnification rows = some mm) (last : PRow) (hl : rows.getLast? = some last)
    (hobj : r0.y 0 = 0) (himg : last.y 0 = 0) : last.y 1 = mm.1 * r0.y 1 := by
  have hlen := trace_length (by simp) ht
  have hplen := List.length_pos_iff.mpr hpre
  have hmap := rows_map hes ht (j := (pre ++ [e]).length - 1) (b := last) (by simp)
    (by rw [← hlen, ← List.getLast?_eq_getElem?]; exact hl)
  obtain ⟨A, B, C, D, hdet, hk⟩ := hmap
  rw [trace_snoc pre hpre e he] at ht
  simp only [Option.bind_eq_some_iff] at ht
  obtain ⟨rp, hrp, rk, hrk, ht⟩ := ht
  split at ht
  · cases ht
  cases ht
  have hrpl := trace_length hpre hrp
  have hlast : last = shiftRow rk e.tf.distance := by simpa using hl.symm
  have hget : (rp ++ [shiftRow rk e.tf.distance])[(rp ++ [shiftRow rk e.tf.distance]).length - 2]?
      = some rk := by
    rw [List.getElem?_append_left (by simp; omega), ← hrk, List.getLast?_eq_getElem?]
    simp
  unfold magnification ends at hm
  rw [if_pos (by rw [List.length_append]; simp only [List.length_singleton]; omega), hget] at hm
  have h0 : (rp ++ [shiftRow rk e.tf.distance])[0]? = some r0 := by
    obtain ⟨m, c, _, _, _, _, rfl⟩ := trace_columns hrp
    rfl
  rw [h0] at hm
  simp only [Option.bind_some, Option.map_some, Option.bind_eq_some_iff,
    Option.map_eq_some_iff] at hm
  obtain ⟨x, ⟨r1, _, hx⟩, mt, hmt, ma, _, rfl⟩ := hm
  cases hx
  simp only at hmt ⊢
  obtain ⟨hu, rfl⟩ := qdiv_some hmt
  have huk : last.u 0 = rk.u 0 := by rw [hlast]; rfl
  obtain ⟨e1, e2⟩ := hk 0
  obtain ⟨e3, _⟩ := hk 1
  rw [hobj] at e1 e2
  rw [huk] at e2
  have hu0 : r0.u 0 ≠ 0 := by
    intro h0'; rw [h0'] at e2; simp at e2; exact hu e2
  have hB : B = 0 := by
    rw [himg] at e1
    have : B * r0.u 0 = 0 := by linarith
    rcases mul_eq_zero.mp this with h | h
    · exact h
    · exact absurd h hu0
  rw [hB] at hdet e3
  have hAD : A * D = 1 := by linarith
  rw [e3, e2]
  have hD : D ≠ 0 := by rintro rfl; simp at hAD
  field_simp
  linear_combination r0.u 0 * r0.y 1 * hAD

/-- C40, pupils: every ray through the axial point of the entrance pupil leaves through the axial
point of the exit pupil, and its slope is multiplied by the angular magnification. -/
theorem c40_pupils {sys : List Elem} {axis : Fin 2} {l : ℝ} {r0 : PRow} {rows : List PRow}
    (h : Traced sys axis l r0 rows) (p mm : ℝ × ℝ) (hp : pupilDistance rows = some p)
    (hm : magnification rows = some mm) (y1 u0 yk uk nk : ℝ)
    (hr : Passes sys axis l r0.n y1 u0 yk uk nk) (hn0 : r0.n ≠ 0)
    (hin : y1 + p.1 * (u0 / r0.n) = 0) :
    yk + p.2 * (uk / nk) = 0 ∧ uk / nk = mm.2 * (u0 / r0.n) := by
  obtain ⟨r1, rk, d, A, B, C, D, hends, hdet, hk, hw⟩ :=
    ends_map h.noRoll h.three h.upright h.trace
  unfold pupilDistance at hp
  unfold magnification at hm
  rw [hends] at hp hm
  simp only [Option.bind_some, Option.bind_eq_some_iff, Option.map_eq_some_iff] at hp hm
  obtain ⟨a, ha, b, hb, rfl⟩ := hp
  obtain ⟨mt, _, ma, hma, rfl⟩ := hm
  obtain ⟨hu0, rfl⟩ := qdiv_some ha
  obtain ⟨huk, rfl⟩ := qdiv_some hb
  obtain ⟨hprod, rfl⟩ := qdiv_some hma
  have hnk : rk.n ≠ 0 := fun h => hprod (by rw [h]; ring)
  obtain ⟨w, ow, x1, xk, how, hx1, hxk, rfl, rfl, rfl, rfl, rfl⟩ := hr
  obtain ⟨x1', xk', g1, g2, g3, g4, g5, g6⟩ := hw w ow how
  rw [hx1] at g1; cases g1
  rw [hxk] at g2; cases g2
  obtain ⟨e1, e2, e3⟩ := hk 1
  rw [g3]
  have hy : x1.1 (.inl axis) = r1.y 1 * (w (.inr axis) / r0.u 1) := by
    simp only at hin
    field_simp at hin ⊢
    linear_combination hin
  have f1 : xk.1 (.inl axis) = rk.y 1 * (w (.inr axis) / r0.u 1) := by
    rw [g5, hy, e2]; field_simp
  have f2 : xk.1 (.inr axis) = rk.u 1 * (w (.inr axis) / r0.u 1) := by
    rw [g6, hy, e3]; field_simp
  rw [f1, f2]
  constructor
  · simp only; field_simp; ring
  · simp only; field_simp

/-- C40, pupil heights: by the Lagrange invariant the pupil heights times the chief ray's optical
slopes are the Lagrange invariant of the trace, in object and image space. -/
theorem c40_pupil_height {sys : List Elem} {axis : Fin 2} {l : ℝ} {r0 : PRow} {rows : List PRow}
    (h : Traced sys axis l r0 rows) (q : ℝ × ℝ) (hq : pupilHeight rows = some q)
    (hn0 : r0.n ≠ 0) :
    ∃ rk : PRow, rows[rows.length - 2]? = some rk ∧
      q.1 * |r0.u 1| = |r0.u 0 * r0.y 1 - r0.u 1 * r0.y 0| ∧
      q.2 * |rk.u 1| = |r0.u 0 * r0.y 1 - r0.u 1 * r0.y 0| := by
  obtain ⟨r1, rk, d, A, B, C, D, hends, hdet, hk, hw⟩ :=
    ends_map h.noRoll h.three h.upright h.trace
  have hrk : rows[rows.length - 2]? = some rk := by
    unfold ends at hends
    split at hends
    · cases h2 : rows[rows.length - 2]? with
      | none => rw [h2] at hends; simp [Option.bind_eq_some_iff] at hends
      | some x =>
        rw [h2] at hends
        simp only [Option.map_some, Option.bind_eq_some_iff] at hends
        obtain ⟨_, _, _, _, hx⟩ := hends
        cases hx; rfl
    · cases hends
  unfold pupilHeight pupilDistance at hq
  rw [hends] at hq
  simp only [Option.bind_some, Option.bind_eq_some_iff, Option.map_eq_some_iff] at hq
  obtain ⟨p, ⟨a, ha, b, hb, rfl⟩, s, hs, t, ht, rfl⟩ := hq
  obtain ⟨hu0, rfl⟩ := qdiv_some ha
  obtain ⟨huk, rfl⟩ := qdiv_some hb
  obtain ⟨-, rfl⟩ := qdiv_some hs
  obtain ⟨hnk, rfl⟩ := qdiv_some ht
  obtain ⟨e1, e2, e3⟩ := hk 0
  obtain ⟨f1, f2, f3⟩ := hk 1
  refine ⟨rk, hrk, ?_, ?_⟩
  · rw [← abs_mul, ← abs_neg]
    congr 1
    simp only
    field_simp
    rw [e1, f1]; ring
  · rw [← abs_mul, ← abs_neg]
    congr 1
    simp only
    field_simp
    rw [e2, e3, f2, f3, e1, f1]
    linear_combination (r0.y 1 * r0.u 0 - r0.y 0 * r0.u 1) * hdet

/-! ## C42 -/

theorem start_ne_zero {l : ℝ} {es : List Elem} (hne : es ≠ []) {n : ℝ} {ms : List (ℝ × PM)}
    (h : matricesFrom l es n = some ms) : n ≠ 0 := by
  cases es with
  | nil => exact absurd rfl hne
  | cons e es =>
    simp only [matricesFrom, Option.bind_eq_some_iff] at h
    obtain ⟨nm, hnm, _⟩ := h
    intro h0
    rw [h0] at hnm
    simp [Elem.paraxialMatrix] at hnm

theorem paraxialMatrix_plane {sys : List Elem} {l : ℝ} {start : ℕ} {stop : Option ℤ} {nm : ℝ × PM}
    (hes : NoRoll sys) (h : paraxialMatrix sys l start stop = some nm) : Decoupled nm.2 := by
  unfold paraxialMatrix at h
  rw [Option.map_eq_some_iff] at h
  obtain ⟨ms, hms, rfl⟩ := h
  exact accumulate_decoupled ms (matricesFrom_decoupled l _
    (fun e he => hes e (List.mem_of_mem_take (List.mem_of_mem_drop he))) _ ms hms)

/-- The stop row of every traced ray is the matrix up to the stop times the starting row. -/
theorem stop_row {sys : List Elem} {l : ℝ} {ai : ℕ} (hai : 1 ≤ ai) (hlt : ai < sys.length)
    {nm : ℝ × PM} (h : paraxialMatrix sys l 1 (some ((ai + 1 : ℕ) : ℤ)) = some nm) {w : PVec}
    {ow : List (PVec × ℝ)} {xs : PVec × ℝ}
    (how : propagateParaxial sys w (refractiveIndex sys l 0) l 1 none = some ow)
    (hxs : ow[ai - 1]? = some xs) :
    xs = (nm.2 *ᵥ w, nm.1) ∧ refractiveIndex sys l 0 ≠ 0 := by
  have hstop : pyStop sys.length (some ((ai + 1 : ℕ) : ℤ)) = ai + 1 :=
    pyBound_nat _ _ (by omega)
  have hact := c17_action sys l 1 (some ((ai + 1 : ℕ) : ℤ)) nm.1 nm.2 h (by rw [hstop]; omega) w
  obtain ⟨o1, h1, h2⟩ := hact
  have hsplit := c13_paraxial_split sys w (refractiveIndex sys l 0) l 1 (ai + 1) none (by omega)
    (by simp only [pyStop]; omega)
  have hz : ((1 : ℕ) - 1 : ℤ) = 0 := by norm_num
  rw [hz] at h1
  simp only [Nat.cast_one] at h1 hsplit
  rw [how, h1] at hsplit
  simp only [Option.bind_some] at hsplit
  have hl1 : o1.length = ai := by
    have := (c13_paraxial_count sys w (0 : QM) (refractiveIndex sys l 0) l 1
      (some ((ai + 1 : ℕ) : ℤ)) (by omega)).1 o1 (by simpa using h1)
    rw [this, hstop]; omega
  obtain ⟨o2, _, ho⟩ := Option.map_eq_some_iff.mp hsplit.symm
  refine ⟨?_, ?_⟩
  · rw [← ho, List.getElem?_append_left (by omega), show ai - 1 = o1.length - 1 by omega,
      ← List.getLast?_eq_getElem?, h2] at hxs
    cases hxs; rfl
  · unfold paraxialMatrix paraxialMatrices at h
    rw [Option.map_eq_some_iff] at h
    obtain ⟨ms, hms, _⟩ := h
    rw [show (1 : ℤ) - 1 = 0 by norm_num] at hms
    refine start_ne_zero ?_ hms
    intro h0
    have := congrArg List.length h0
    unfold pySlice at this
    rw [hstop] at this
    simp [pyBound] at this
    omega

/-- C42, entrance pupil: the plane at the computed distance from the object surface is the image of
the stop formed by the elements before it: the height of every ray in that plane is its height on
the stop divided by one factor `a`, and the pupil radius is the stop radius divided by `a`. -/
theorem c42_entrance (sys : List Elem) (axis : Fin 2) (l : ℝ) (ai : ℕ) (r d h : ℝ)
    (hes : NoRoll sys) (hai : 1 ≤ ai) (hlt : ai < sys.length)
    (hp : entrancePupil sys axis l ai r = some (d, h)) :
    ∃ a : ℝ, a ≠ 0 ∧ h * a = r ∧ ∀ (w : PVec) (ow : List (PVec × ℝ)) (xs : PVec × ℝ),
      propagateParaxial sys w (refractiveIndex sys l 0) l 1 none = some ow →
      ow[ai - 1]? = some xs →
      w (.inl axis) + d * (w (.inr axis) / refractiveIndex sys l 0) = xs.1 (.inl axis) / a := by
  unfold entrancePupil at hp
  simp only [Option.bind_eq_some_iff, Option.map_eq_some_iff] at hp
  obtain ⟨nm, hnm, d', hd, h', hh, heq⟩ := hp
  cases heq
  obtain ⟨ha, rfl⟩ := qdiv_some hd
  obtain ⟨_, rfl⟩ := qdiv_some hh
  refine ⟨_, ha, by field_simp, fun w ow xs how hxs => ?_⟩
  obtain ⟨rfl, hn0⟩ := stop_row hai hlt hnm how hxs
  have hd := paraxialMatrix_plane (start := 1) hes (by simpa using hnm)
  simp only [(hd.mulVec w axis).1]
  simp only [block, of_apply, cons_val_zero, cons_val_one, cons_val', cons_val_fin_one] at ha ⊢
  field_simp

/-- C42, exit pupil: the plane at the computed distance from the image surface is the image of the
stop formed by the elements after it. -/
theorem c42_exit (sys : List Elem) (axis : Fin 2) (l : ℝ) (ai : ℕ) (r d h : ℝ)
    (hes : NoRoll sys) (hai : 1 ≤ ai) (hlt : ai + 1 < sys.length)
    (hp : exitPupil sys axis l ai r = some (d, h)) :
    ∃ a : ℝ, a ≠ 0 ∧ h * a = r ∧
      ∀ (w : PVec) (ow : List (PVec × ℝ)) (xs xi : PVec × ℝ),
      propagateParaxial sys w (refractiveIndex sys l 0) l 1 none = some ow →
      ow[ai - 1]? = some xs → ow.getLast? = some xi → xi.2 ≠ 0 →
      xi.1 (.inl axis) + d * (xi.1 (.inr axis) / xi.2) = xs.1 (.inl axis) / a := by
  unfold exitPupil at hp
  simp only [Option.bind_eq_some_iff] at hp
  obtain ⟨nm, hnm, hp⟩ := hp
  split at hp
  · cases hp
  rename_i hdet0
  simp only [Option.bind_eq_some_iff, Option.map_eq_some_iff] at hp
  obtain ⟨d', hd, h', hh, heq⟩ := hp
  cases heq
  obtain ⟨ha, rfl⟩ := qdiv_some hd
  obtain ⟨_, rfl⟩ := qdiv_some hh
  refine ⟨_, ha, by field_simp, fun w ow xs xi how hxs hxi hni => ?_⟩
  have hstop : pyStop sys.length (some ((ai + 1 : ℕ) : ℤ)) = ai + 1 :=
    pyBound_nat _ _ (by omega)
  -- split the trace at the stop
  have hsplit := c13_paraxial_split sys w (refractiveIndex sys l 0) l 1 (ai + 1) none (by omega)
    (by simp only [pyStop]; omega)
  simp only [Nat.cast_one] at hsplit
  rw [how] at hsplit
  have hs2 := hsplit.symm
  simp only [Option.bind_eq_some_iff, Option.map_eq_some_iff] at hs2
  obtain ⟨o1, h1, o2, h2, ho⟩ := hs2
  have hl1 : o1.length = ai := by
    have := (c13_paraxial_count sys w (0 : QM) (refractiveIndex sys l 0) l 1
      (some ((ai + 1 : ℕ) : ℤ)) (by omega)).1 o1 (by simpa using h1)
    rw [this, hstop]; omega
  have hlast : o1.getLast? = some xs := by
    rw [← ho, List.getElem?_append_left (by omega)] at hxs
    rw [List.getLast?_eq_getElem?, hl1]; exact hxs
  -- the index at the stop
  have hidx : xs.2 = refractiveIndex sys l (ai : ℤ) := by
    have how' := how
    unfold propagateParaxial at how'
    obtain ⟨ms, hms⟩ := scan_matrices l _ _ _ _ how'
    have hz : ((1 : ℕ) : ℤ) - 1 = 0 := by norm_num
    obtain ⟨_, hc⟩ := c20_paraxial sys l 1 none le_rfl ms
      (by unfold paraxialMatrices; rw [hz]; exact hms)
    obtain ⟨out, hout, hx⟩ := hc w
    rw [hz] at hout
    simp only [Nat.cast_one] at hout
    rw [how] at hout
    cases hout
    have := hx (ai - 1) xs hxs
    rw [this]
    congr 2
    omega
  rw [hlast] at h2
  simp only [Option.getD_some] at h2
  obtain ⟨out, h4, h5⟩ := c17_action sys l (ai + 1) none nm.1 nm.2 hnm (by simp only [pyStop]; omega)
    xs.1
  have hz : (((ai + 1 : ℕ) : ℤ) - 1) = (ai : ℤ) := by push_cast; ring
  rw [hz, ← hidx, h2] at h4
  cases h4
  have hxi' : xi = (nm.2 *ᵥ xs.1, nm.1) := by
    rw [← ho, List.getLast?_append, h5] at hxi
    simpa using hxi.symm
  subst hxi'
  have hd := paraxialMatrix_plane hes hnm
  have hs := (c18_symplectic sys l (ai + 1) none hes nm.1 nm.2 hnm).1
  have hdd := hd.det hs axis
  simp only [(hd.mulVec xs.1 axis).1, (hd.mulVec xs.1 axis).2]
  simp only at hni
  have hblk : (block nm.2 axis).det = 1 := by
    rw [Matrix.det_fin_two]
    simp only [block, of_apply, cons_val_zero, cons_val_one, cons_val', cons_val_fin_one]
    linear_combination hdd
  have hinv : (block nm.2 axis)⁻¹ = !![nm.2 (.inr axis) (.inr axis), -nm.2 (.inl axis) (.inr axis);
      -nm.2 (.inr axis) (.inl axis), nm.2 (.inl axis) (.inl axis)] := by
    rw [Matrix.inv_def, hblk]
    simp [block, Matrix.adjugate_fin_two]
  rw [hinv] at ha ⊢
  simp only [of_apply, cons_val_zero, cons_val_one, cons_val', cons_val_fin_one] at ha ⊢
  field_simp
  linear_combination xs.1 (.inl axis) * hdd

theorem slope_radius {p : Pupil} {s r : ℝ} (hs : p.slope = some s) (hr : p.radius = some r) :
    r = p.distance * s := by
  unfold Pupil.radius at hr
  cases hk : p.kind with
  | radius v =>
    rw [hk] at hr
    unfold Pupil.slope at hs
    rw [hk] at hs
    simp only at hs hr
    split at hs
    · cases hs
    · rename_i hd
      cases hs; cases hr
      field_simp
  | na v => rw [hk] at hr; simp only [hs, Option.map_some] at hr; cases hr; ring
  | slope v => rw [hk] at hr; simp only [hs, Option.map_some] at hr; cases hr; ring
  | fno v => rw [hk] at hr; simp only [hs, Option.map_some] at hr; cases hr; ring

theorem rays_n {o : Conj} {n0 : ℝ} {r0 : PRow} (h : rays o n0 = some r0) : r0.n = n0 := by
  unfold rays at h
  cases hf : o.finite <;>
  · simp only [hf, Bool.false_eq_true, if_false, if_true, Option.bind_eq_some_iff,
      Option.map_eq_some_iff] at h
    obtain ⟨_, _, _, _, rfl⟩ := h
    rfl

/-- C42, field: after `update_conjugates` with the field update flag set the chief ray of the next
trace starts at the edge of the first element, for finite and for infinite objects. -/
theorem c42_field (sys : List Elem) (axis : Fin 2) (l : ℝ) (ai : ℕ) (r q0 q1 : ℝ)
    (object image o i : Conj)
    (hu : updateConjugates sys axis l ai r q0 q1 object image = some (o, i))
    (hf : object.updateRadius = true) (hd : object.pupil.updateDistance = true)
    (hr : object.pupil.updateRadius = true) (hidx : object.pupil.index ≠ 0) (n0 : ℝ)
    (r0 : PRow) (hr0 : rays o n0 = some r0) (hpd : o.pupil.distance ≠ 0) :
    r0.y 1 = -q0 := by
  unfold updateConjugates at hu
  simp only [Option.bind_eq_some_iff, Option.map_eq_some_iff] at hu
  obtain ⟨⟨d, h⟩, hp, o', ho', _, _, _, _, heq⟩ := hu
  cases heq
  unfold Conj.update at ho'
  rw [Option.map_eq_some_iff] at ho'
  obtain ⟨p, hpu, rfl⟩ := ho'
  obtain ⟨hpd', -⟩ := Pupil.c39_update _ _ _ _ hidx hd hr hpu
  simp only at hpd' hpd
  unfold rays at hr0
  by_cases hfin : object.finite = true
  · rw [if_pos hfin] at hr0
    simp only [Option.bind_eq_some_iff, Option.map_eq_some_iff] at hr0
    obtain ⟨ps, _, s, _, rfl⟩ := hr0
    simp [hf, hfin]
  · rw [if_neg hfin] at hr0
    simp only [Option.bind_eq_some_iff, Option.map_eq_some_iff] at hr0
    obtain ⟨ps, _, s, hs, rfl⟩ := hr0
    unfold Conj.slope at hs
    rw [if_neg hfin] at hs
    cases hs
    have hd0 : d ≠ 0 := by rw [← hpd']; exact hpd
    simp [hf, hfin, hpd', arctan2, Complex.tan_arg]
    field_simp

/-- The rays started from the conjugate updated with the entrance pupil: at the stop the chief ray is on the axis and the
marginal ray at the stop radius. -/
theorem stop_of_entrance (sys : List Elem) (axis : Fin 2) (l : ℝ) (ai : ℕ) (r q0 d h : ℝ)
    (object o' : Conj) (hes : NoRoll sys) (hai : 1 ≤ ai) (hlt : ai < sys.length)
    (hp : entrancePupil sys axis l ai r = some (d, h)) (ho' : object.update q0 d h = some o')
    (hd : object.pupil.updateDistance = true) (hr : object.pupil.updateRadius = true)
    (hidx : object.pupil.index ≠ 0) (hw : object.finite = true ∨ object.wideangle = false)
    (r0 : PRow) (hr0 : rays o' (refractiveIndex sys l 0) = some r0) (rows : List PRow)
    (ht : PTrace.trace sys axis l r0 = some rows) (rs : PRow) (hrs : rows[ai]? = some rs) :
    rs.y 0 = r ∧ rs.y 1 = 0 := by
  obtain ⟨a, ha, har, hrow⟩ := c42_entrance sys axis l ai r d h hes hai hlt hp
  unfold Conj.update at ho'
  rw [Option.map_eq_some_iff] at ho'
  obtain ⟨p, hpu, rfl⟩ := ho'
  obtain ⟨hpd, hpr⟩ := Pupil.c39_update _ _ _ _ hidx hd hr hpu
  obtain ⟨m, c, hm, hc, hml, hcl, rfl⟩ := trace_columns ht
  have hn0 : r0.n = refractiveIndex sys l 0 := rays_n hr0
  have hne : refractiveIndex sys l 0 ≠ 0 := by
    have hm' := hm
    unfold propagateParaxial at hm'
    obtain ⟨ms, hms⟩ := scan_matrices l _ _ _ _ hm'
    rw [pySlice_one] at hms
    rw [← hn0]
    refine start_ne_zero ?_ hms
    intro h0
    have := congrArg List.length h0
    simp at this
    omega
  have hai' : ai = (ai - 1) + 1 := by omega
  rw [hai', List.getElem?_cons_succ, List.getElem?_zipWith] at hrs
  cases hmj : m[ai - 1]? with
  | none => rw [hmj] at hrs; simp at hrs
  | some xm =>
  cases hcj : c[ai - 1]? with
  | none => rw [hmj, hcj] at hrs; simp at hrs
  | some xc =>
  rw [hmj, hcj] at hrs
  simp only [Option.some.injEq] at hrs
  subst hrs
  rw [hn0] at hm hc
  have f1 := hrow _ m xm hm hmj
  have f2 := hrow _ c xc hc hcj
  simp only [column, Sum.elim_inl, Sum.elim_inr] at f1 f2
  have key : r0.y 0 + d * (r0.u 0 / refractiveIndex sys l 0) = h ∧
      r0.y 1 + d * (r0.u 1 / refractiveIndex sys l 0) = 0 := by
    generalize refractiveIndex sys l 0 = n0 at *
    unfold rays at hr0
    by_cases hfin : object.finite = true
    · rw [if_pos hfin] at hr0
      simp only [Option.bind_eq_some_iff, Option.map_eq_some_iff] at hr0
      obtain ⟨ps, hps, s, hs, rfl⟩ := hr0
      have h1 := slope_radius hps hpr
      unfold Conj.slope at hs
      rw [if_pos hfin] at hs
      obtain ⟨h2, rfl⟩ := qdiv_some hs
      simp only [hpd] at h1 h2 ⊢
      simp only [cons_val_zero, cons_val_one, cons_val_fin_one]
      constructor
      · rw [h1]; field_simp; ring
      · field_simp; ring
    · have hwa : object.wideangle = false := by
        rcases hw with hw | hw
        · exact absurd hw hfin
        · exact hw
      rw [if_neg hfin] at hr0
      simp only [hwa, Bool.false_eq_true, if_false] at hr0
      simp only [Option.bind_eq_some_iff, Option.map_eq_some_iff] at hr0
      obtain ⟨pr, hprr, s, hs, rfl⟩ := hr0
      rw [hpr] at hprr
      cases hprr
      unfold Conj.slope at hs
      rw [if_neg hfin] at hs
      cases hs
      simp only [hpd]
      simp only [cons_val_zero, cons_val_one, cons_val_fin_one]
      constructor
      · simp
      · field_simp; ring
  rw [key.1] at f1
  rw [key.2] at f2
  simp only [PTrace.row, cons_val_zero, cons_val_one, cons_val_fin_one]
  constructor
  · field_simp at f1
    rw [← f1]; exact har
  · have := f2.symm
    rcases div_eq_zero_iff.mp this with h | h
    · exact h
    · exact absurd h ha

/-- C42, end to end: after `update_conjugates` with both update flags set, the chief ray of the next
trace meets the stop on the axis and the marginal ray meets it at the stop radius (finite objects
and rectilinear infinite ones). -/
theorem c42_stop (sys : List Elem) (axis : Fin 2) (l : ℝ) (ai : ℕ) (r q0 q1 : ℝ)
    (object image o i : Conj) (hes : NoRoll sys) (hai : 1 ≤ ai) (hlt : ai < sys.length)
    (hu : updateConjugates sys axis l ai r q0 q1 object image = some (o, i))
    (hd : object.pupil.updateDistance = true) (hr : object.pupil.updateRadius = true)
    (hidx : object.pupil.index ≠ 0) (hw : object.finite = true ∨ object.wideangle = false)
    (r0 : PRow) (hr0 : rays o (refractiveIndex sys l 0) = some r0) (rows : List PRow)
    (ht : PTrace.trace sys axis l r0 = some rows) (rs : PRow) (hrs : rows[ai]? = some rs) :
    rs.y 0 = r ∧ rs.y 1 = 0 := by
  unfold updateConjugates at hu
  simp only [Option.bind_eq_some_iff, Option.map_eq_some_iff] at hu
  obtain ⟨⟨d, h⟩, hp, o', ho', _, _, _, _, heq⟩ := hu
  cases heq
  exact stop_of_entrance sys axis l ai r q0 d h object _ hes hai hlt hp ho' hd hr hidx hw r0 hr0 rows ht rs hrs

/-- C42, the excluded case: for a wide-angle object (any non-rectilinear projection) the chief ray is
given the slope 1 but the height for the slope `tan(angle)`, so that it does not pass the centre of
the pupil unless `tan(angle) = 1`. -/
theorem c42_wideangle_violation (o : Conj) (n0 : ℝ) (hn : n0 ≠ 0) (hf : o.finite = false)
    (hw : o.wideangle = true) (r0 : PRow) (h : rays o n0 = some r0) :
    r0.y 1 + o.pupil.distance * (r0.u 1 / n0) = o.pupil.distance * (1 - Real.tan o.size) := by
  unfold rays at h
  simp only [hf, hw, Bool.false_eq_true, if_false, if_true, Option.bind_eq_some_iff,
    Option.map_eq_some_iff, Conj.slope] at h
  obtain ⟨pr, _, s, hs, rfl⟩ := h
  cases hs
  simp only [cons_val_one, cons_val_fin_one]
  field_simp
  ring

end RayOpt
