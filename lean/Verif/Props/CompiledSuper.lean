import Verif.Props.CompiledVector
import Verif.Props.Superimpose

/-!
C111: `superimposition_matrix` of the compiled extension, `rayopt/_transformations.c` 1724-2033.
-/

namespace RayOpt.Compiled

open RayOpt V3 Matrix Super

/-- The centred points as the extension has them. -/
theorem centred_eq (l : List Pair) :
    (l.map fun p => (p.1 - mean l Prod.fst, p.2 - mean l Prod.snd)) = centred l := by
  unfold centred
  dsimp only
  refine List.map_congr_left fun p _ => ?_
  ext <;> simp <;> ring

/-- Scale and translation are those of the Python function. -/
theorem finish_eq (l : List Pair) (scaling : Bool) (r : M3) :
    finish l scaling r = match place l scaling r with
      | some m => .mat m
      | none => .nan := by
  have s0 : (total l fun p => (p.1 - mean l Prod.fst).dot (p.1 - mean l Prod.fst)) =
      total (centred l) fun p => p.1.dot p.1 := by rw [← centred_eq, total_map]
  have s1 : (total l fun p => (p.2 - mean l Prod.snd).dot (p.2 - mean l Prod.snd)) =
      total (centred l) fun p => p.2.dot p.2 := by rw [← centred_eq, total_map]
  unfold finish
  dsimp only
  rw [s0, s1]
  rcases hp : place l scaling r with - | m
  · dsimp only
    rw [if_pos]
    unfold place at hp
    dsimp only at hp
    rw [Option.map_eq_none_iff] at hp
    cases scaling
    · simp at hp
    · refine ⟨rfl, ?_⟩
      rw [if_pos rfl] at hp
      unfold ratio at hp
      dsimp only at hp
      split_ifs at hp with h
      exact h
  · obtain ⟨f, h1, h2, ha, hb, hc, hd⟩ := place_some hp
    dsimp only
    have hne : ¬ ((scaling = true) ∧ (total (centred l) fun p => p.1.dot p.1) = 0) := by
      rintro ⟨hs, h0⟩
      have := h2 hs
      unfold ratio at this
      dsimp only at this
      rw [if_pos h0] at this
      simp at this
    rw [if_neg hne]
    have hf : (if scaling then √((total (centred l) fun p => p.2.dot p.2) / total (centred l) fun p => p.1.dot p.1) else 1) =
        f := by
      cases scaling
      · rw [h1 rfl]; rfl
      · have := h2 rfl
        unfold ratio at this
        dsimp only at this
        split_ifs at this with h0
        rw [if_pos rfl]
        exact Option.some.inj this
    rw [hf]
    congr 1
    ext <;> simp [ha, hb, hc, hd, H4.smul3, M3.mulVec] <;> ring

/-- The result is a matrix only if the solver found an eigenvector, and then it is the motion with this rotation. -/
theorem superimpose_ok {turns : ℕ} {l : List Pair} {scaling : Bool} {m : H4}
    (h : superimpose turns l scaling = some (.ok (.mat m))) : l ≠ [] ∧ ∃ (r : ℝ) (v : Arr4),
      maxEigenvalue turns (tridiagonalize (nMatrix (centred l))) = some r ∧
      eigenvector ((nMatrix (centred l)).shift r) = some v ∧
      Quat.dot ⟨v.v3, v.v0, v.v1, v.v2⟩ ⟨v.v3, v.v0, v.v1, v.v2⟩ = 1 ∧
      place l scaling (Quat.matrix ⟨v.v3, v.v0, v.v1, v.v2⟩) = some m := by
  unfold superimpose at h
  split_ifs at h with hl
  · simp at h
  dsimp only at h
  rw [centred_eq] at h
  refine ⟨hl, ?_⟩
  unfold largest at h
  rw [Option.map_map, Option.map_eq_some_iff] at h
  obtain ⟨r, hr, h⟩ := h
  refine ⟨r, ?_⟩
  dsimp only [Function.comp] at h
  rcases hv : eigenvector ((nMatrix (centred l)).shift r) with - | v
  · rw [hv] at h; simp [Except.map] at h
  · rw [hv] at h
    have h' : finish l scaling (quaternionMatrix ⟨v.v3, v.v0, v.v1, v.v2⟩).1.a = .mat m := by
      simpa [Except.map] using h
    have hone := (c109_vector _ _ hv).1
    have hq : Quat.dot ⟨v.v3, v.v0, v.v1, v.v2⟩ ⟨v.v3, v.v0, v.v1, v.v2⟩ = 1 := by
      rw [← hone]; simp [Quat.dot, Arr4.vec, dotProduct, Fin.sum_univ_four]
    refine ⟨v, hr, rfl, hq, ?_⟩
    rw [c107_matrix _ (by rw [hq]; unfold tfEps; norm_num), finish_eq] at h'
    rcases hp : place l scaling (Quat.matrix ⟨v.v3, v.v0, v.v1, v.v2⟩) with - | m'
    · rw [hp] at h'; simp at h'
    · rw [hp] at h'
      dsimp only at h'
      rw [Fit.mat.injEq] at h'
      rw [h']

/-- Whenever `superimposition_matrix` of the extension returns a matrix of numbers, it is a rotation times a factor that
is not negative, it takes centroid to centroid, the factor is one without scaling, and with scaling the image of the
first set has the size of the second. -/
theorem c111_motion (turns : ℕ) (l : List Pair) (scaling : Bool) (m : H4)
    (h : superimpose turns l scaling = some (.ok (.mat m))) :
    ∃ (f : ℝ) (r : M3), 0 ≤ f ∧ r.IsRot ∧ m.a = H4.smul3 f r ∧ m.c = 0 ∧ m.d = 1 ∧
      H4.point (m.app (mean l Prod.fst, 1)) = mean l Prod.snd ∧ (scaling = false → f = 1) ∧
      (scaling = true → f ^ 2 * (total l fun p => (p.1 - mean l Prod.fst).dot (p.1 - mean l Prod.fst)) =
        total l fun p => (p.2 - mean l Prod.snd).dot (p.2 - mean l Prod.snd)) := by
  obtain ⟨hl, r, v, -, -, -, hp⟩ := superimpose_ok h
  obtain ⟨f, h1, h2, ha, hb, hc, hd⟩ := place_some hp
  have hf : 0 ≤ f ∧ (scaling = true → f ^ 2 * (total (centred l) fun p => p.1.dot p.1) =
      total (centred l) fun p => p.2.dot p.2) := by
    cases scaling
    · refine ⟨?_, fun h => by simp at h⟩
      rw [h1 rfl]; norm_num
    · have := h2 rfl
      simp only [ratio] at this
      split_ifs at this with h0
      obtain rfl := Option.some.inj this
      refine ⟨Real.sqrt_nonneg _, fun _ => ?_⟩
      rw [Real.sq_sqrt (div_nonneg (total_nonneg fun p => dot_self_nonneg _) (total_nonneg fun p => dot_self_nonneg _)),
        div_mul_cancel₀ _ h0]
  refine ⟨f, _, hf.1, c57_matrix_rot _, ha, hc, hd, ?_, h1, fun hs => ?_⟩
  · rw [point_affine hc hd, ha, hb]; ext <;> simp
  · have := hf.2 hs
    rw [← centred_eq, total_map, total_map] at this
    exact this

/-- The quaternion as a vector in the order of `N`. -/
def comps (q : Quat) : Fin 4 → ℝ := ![q.w, q.x, q.y, q.z]

/-- What a rotation gains is the form of `N`. -/
theorem frob_form (c : List Pair) (q : Quat) (hq : q.dot q = 1) :
    frob q.matrix (cov c) = comps q ⬝ᵥ ((nMatrix c).matrix *ᵥ comps q) := by
  have h1 : tfEps ≤ q.dot q := by rw [hq]; unfold tfEps; norm_num
  have hc : ∀ f g : Pair → ℝ, (total c fun p => f p * g p) = total c fun p => g p * f p :=
    fun f g => total_congr fun p _ => mul_comm _ _
  rw [Quat.matrix_eq h1, hq]
  simp only [frob, cov, nMatrix, Sym4.matrix]
  rw [hc (fun p => p.1.x) (fun p => p.2.x), hc (fun p => p.1.y) (fun p => p.2.y),
    hc (fun p => p.1.z) (fun p => p.2.z), hc (fun p => p.1.x) (fun p => p.2.y),
    hc (fun p => p.1.y) (fun p => p.2.z), hc (fun p => p.1.z) (fun p => p.2.x),
    hc (fun p => p.1.x) (fun p => p.2.z), hc (fun p => p.1.y) (fun p => p.2.x),
    hc (fun p => p.1.z) (fun p => p.2.y)]
  generalize (total c fun p => p.2.x * p.1.x) = xx
  generalize (total c fun p => p.2.x * p.1.y) = yx
  generalize (total c fun p => p.2.x * p.1.z) = zx
  generalize (total c fun p => p.2.y * p.1.x) = xy
  generalize (total c fun p => p.2.y * p.1.y) = yy
  generalize (total c fun p => p.2.y * p.1.z) = zy
  generalize (total c fun p => p.2.z * p.1.x) = xz
  generalize (total c fun p => p.2.z * p.1.y) = yz
  generalize (total c fun p => p.2.z * p.1.z) = zz
  simp only [Quat.dot] at hq
  simp [comps, dotProduct, mulVec, Fin.sum_univ_four]
  linear_combination (-xx - yy - zz) * hq

theorem comps_sq (q : Quat) (hq : q.dot q = 1) : comps q ⬝ᵥ comps q = 1 := by
  rw [← hq]; simp [comps, Quat.dot, dotProduct, Fin.sum_univ_four]

theorem comps_ne (q : Quat) (hq : q.dot q = 1) : comps q ≠ 0 := by
  intro h
  have := comps_sq q hq
  rw [h] at this
  simp at this

/-- If no rotation gains more than `d` beyond this one, no motion with the same factor is better by more than twice
the factor times `d`. -/
theorem best_slack {l : List Pair} (hl : l ≠ []) {scale : Bool} {r : M3} (hr : r.IsRot) (d : ℝ)
    (hbest : ∀ q : M3, q.IsRot → frob q (cov (centred l)) ≤ frob r (cov (centred l)) + d)
    {m : H4} (h : place l scale r = some m) :
    ∃ f, 0 ≤ f ∧ m.a = H4.smul3 f r ∧ (scale = false → f = 1) ∧ ∀ (q : M3) (t : V3), q.IsRot →
        misfit l (fun x => H4.point (m.app (x, 1))) ≤ misfit l (fun x => (H4.smul3 f q).mulVec x + t) + 2 * f * d := by
  obtain ⟨f, h1, h2, ha, hb, hc, hd⟩ := place_some h
  have hf : 0 ≤ f := by
    cases scale
    · rw [h1 rfl]; norm_num
    · have := h2 rfl
      simp only [ratio] at this
      split_ifs at this
      obtain rfl := Option.some.inj this
      exact Real.sqrt_nonneg _
  refine ⟨f, hf, ha, h1, ?_⟩
  intro q t hq
  obtain ⟨z1, z2, z3, z4, z5, z6⟩ := centred_zero hl
  have e1 : misfit l (fun x => H4.point (m.app (x, 1))) =
      total (centred l) fun p => ((H4.smul3 f r).mulVec p.1 - p.2).dot ((H4.smul3 f r).mulVec p.1 - p.2) := by
    have : (fun x => H4.point (m.app (x, 1))) = fun x => (H4.smul3 f r).mulVec x +
        (mean l Prod.snd - (H4.smul3 f r).mulVec (mean l Prod.fst)) := by
      funext x; rw [point_affine hc hd, ha, hb]
    rw [this, misfit_centred]
    apply total_congr
    intro p _
    have : (H4.smul3 f r).mulVec (mean l Prod.fst) + (mean l Prod.snd - (H4.smul3 f r).mulVec (mean l Prod.fst)) -
        mean l Prod.snd = 0 := by ext <;> simp
    rw [this]
    simp only [dot, add_x, add_y, add_z, zero_x, zero_y, zero_z]
    ring
  rw [e1, misfit_centred, misfit_shift, z1, z2, z3, z4, z5, z6, misfit_cov _ hr, misfit_cov _ hq]
  have hb := hbest q hq
  generalize (H4.smul3 f q).mulVec (mean l Prod.fst) + t - mean l Prod.snd = e
  have e0 : e.dot ((H4.smul3 f q).mulVec ⟨0, 0, 0⟩ - ⟨0, 0, 0⟩) = 0 := by
    simp [M3.mulVec, dot]
  rw [e0]
  have hee : 0 ≤ ((centred l).length : ℝ) * e.dot e := mul_nonneg (Nat.cast_nonneg _) (dot_self_nonneg e)
  nlinarith [mul_le_mul_of_nonneg_left hb hf]

theorem shift_form (M : Sym4) (r : ℝ) (v : Fin 4 → ℝ) :
    v ⬝ᵥ ((M.shift r).matrix *ᵥ v) = v ⬝ᵥ (M.matrix *ᵥ v) - r * (v ⬝ᵥ v) := by
  simp [Sym4.matrix, Sym4.shift, dotProduct, mulVec, Fin.sum_univ_four]
  ring

/-- What the found rotation gains. -/
theorem gain {N : Sym4} {r : ℝ} {v : Arr4} (hv : eigenvector (N.shift r) = some v) :
    |v.vec ⬝ᵥ (N.matrix *ᵥ v.vec) - r| ≤ |(N.shift r).matrix.det| * 2 ^ 25 := by
  obtain ⟨hone, ⟨k, c, hc, hm⟩, -⟩ := c109_vector _ _ hv
  have hs := shift_form N r v.vec
  rw [hm, hone, mul_one, dotProduct_single] at hs
  rw [← hs, abs_mul]
  have hk : |v.vec k| ≤ 1 := by
    apply abs_le_of_sq_le_sq _ zero_le_one
    rw [dot_self4] at hone
    have h0 := sq_nonneg (v.vec 0); have h1 := sq_nonneg (v.vec 1); have h2 := sq_nonneg (v.vec 2)
    have h3 := sq_nonneg (v.vec 3)
    have : ∀ k, v.vec k ^ 2 ≤ 1 ^ 2 := by
      intro k; fin_cases k <;> simp only [Fin.zero_eta, Fin.mk_one, Fin.reduceFinMk] <;> linarith
    exact this k
  calc |v.vec k| * |c| ≤ 1 * (|(N.shift r).matrix.det| * 2 ^ 25) := mul_le_mul hk hc (abs_nonneg _) zero_le_one
    _ = _ := one_mul _

/-- The rotation is the best one but for the error of the eigenvalue: without a change of sign in the bisection, no other
motion with the same factor has a sum of squared distances that is smaller by more than twice the factor times half the
precision, 2^-49 and 2^25 times the determinant of the shifted matrix. -/
theorem c111_near (turns : ℕ) (l : List Pair) (scaling : Bool) (m : H4) (e : ℝ)
    (h : superimpose turns l scaling = some (.ok (.mat m)))
    (hk : ∀ x ∈ tested turns (tridiagonalize (nMatrix (centred l))), Clean (tridiagonalize (nMatrix (centred l)))
      (precision (tridiagonalize (nMatrix (centred l)))) x)
    (he : ∀ r, maxEigenvalue turns (tridiagonalize (nMatrix (centred l))) = some r →
      e = precision (tridiagonalize (nMatrix (centred l))) / 2 + 1 / 2 ^ 49 +
        |((nMatrix (centred l)).shift r).matrix.det| * 2 ^ 25) :
    ∃ (f : ℝ) (q : M3), 0 ≤ f ∧ q.IsRot ∧ m.a = H4.smul3 f q ∧ (scaling = false → f = 1) ∧ ∀ (q : M3) (t : V3), q.IsRot →
      misfit l (fun x => H4.point (m.app (x, 1))) ≤ misfit l (fun x => (H4.smul3 f q).mulVec x + t) + 2 * f * e := by
  obtain ⟨hl, r, v, hr, hv, hq, hp⟩ := superimpose_ok h
  have hrot := c57_matrix_rot ⟨v.v3, v.v0, v.v1, v.v2⟩
  obtain ⟨f, h0, ha, h1, hbest⟩ := best_slack hl hrot e (fun q hq' => by
    obtain ⟨x, hx, rfl⟩ := c57_onto q hq'
    rw [frob_form _ x hx, frob_form _ _ hq, he r hr]
    have hg := (abs_le.mp (gain hv)).1
    have hvec : comps ⟨v.v3, v.v0, v.v1, v.v2⟩ = v.vec := rfl
    rw [hvec]
    have hre := tri_reaches (nMatrix (centred l)) _ ⟨comps x, comps_ne x hx, by rw [comps_sq x hx, mul_one]⟩
    have := (max_between _ turns _ r hr).2 hre hk
    linarith) hp
  exact ⟨f, _, h0, hrot, ha, h1, hbest⟩

/-- A bisection that finds fewer than four negative signs at every midpoint ends at the upper bound. -/
theorem bisect_high (T : Tri) (eps a : ℝ) (P : ℝ → Prop) (he : 0 ≤ eps) (hc : ∀ x < a, P x → count T eps x < 4)
    (hP : ∀ x < a, P x → P ((a + x) / 2)) (n : ℕ) : ∀ l r, l ≤ a → P ((a + l) / 2) → bisect T eps n l a = some r →
    (a - eps / 2 ≤ r ∧ r ≤ a) ∧ ∀ x ∈ midpoints T eps n l a, P x ∧ x < a := by
  induction n with
  | zero =>
    intro l r hl hp h
    rw [bisect] at h
    split_ifs at h with hn
    rw [abs_of_nonneg (by linarith)] at hn
    rw [Option.some.injEq] at h
    exact ⟨⟨by linarith, by linarith⟩, fun x hx => by simp [midpoints] at hx⟩
  | succ n ih =>
    intro l r hl hp h
    rw [bisect] at h
    dsimp only at h
    rw [midpoints]
    by_cases hn : |a - l| > eps
    · rw [if_pos hn] at h ⊢
      rw [abs_of_nonneg (by linarith)] at hn
      have hx : (a + l) / 2 < a := by linarith
      rw [if_neg (by rintro (h | h) <;> linarith), if_pos (hc _ hx hp)] at h
      rw [if_pos (hc _ hx hp)]
      obtain ⟨h1, h2⟩ := ih _ r (by linarith) (hP _ hx hp) h
      refine ⟨h1, fun x hx' => ?_⟩
      rcases List.mem_cons.mp hx' with rfl | hx'
      · exact ⟨hp, hx⟩
      · exact h2 x hx'
    · rw [if_neg hn] at h ⊢
      rw [abs_of_nonneg (by linarith)] at hn
      rw [Option.some.injEq] at h
      exact ⟨⟨by linarith, by linarith⟩, fun x hx => by simp at hx⟩

theorem count_high (T : Tri) (eps x : ℝ) (h : ¬ (pivots T eps x).v0 < 0 ∨ ¬ (pivots T eps x).v1 < 0) :
    count T eps x < 4 := by
  unfold count
  dsimp only
  rcases h with h | h
  · rw [if_neg h]; split_ifs <;> norm_num
  · rw [if_neg h]; split_ifs <;> norm_num

/-- A matrix on whose diagonal the largest entry comes first. -/
theorem diagonal_high (a b c d eps : ℝ) (he : 0 ≤ eps) (n : ℕ) (l r : ℝ) (hl : l ≤ a)
    (h : bisect ⟨a, b, c, d, 0, 0, 0⟩ eps n l a = some r) : (a - eps / 2 ≤ r ∧ r ≤ a) ∧
    ∀ x ∈ midpoints ⟨a, b, c, d, 0, 0, 0⟩ eps n l a, (a + l) / 2 ≤ x ∧ x < a := by
  refine bisect_high _ _ _ (fun x => (a + l) / 2 ≤ x) he (fun x hx _ => count_high _ _ _ (.inl ?_))
    (fun x hx h => ?_) n l r hl le_rfl h
  · simp only [pivots]; linarith
  · linarith

theorem tridiagonalize_diagonal (a b c d : ℝ) :
    tridiagonalize ⟨a, 0, 0, 0, b, 0, 0, c, 0, d⟩ = ⟨a, b, c, d, 0, 0, 0⟩ := by
  have he : ¬ tfEps < 0 := not_lt.mpr eps_pos.le
  simp [tridiagonalize, house2, house3, he]

/-- Six points that are to stay where they are. -/
noncomputable def crossed (s : ℝ) : List Pair := [(⟨s, 0, 0⟩, ⟨s, 0, 0⟩), (⟨-s, 0, 0⟩, ⟨-s, 0, 0⟩), (⟨0, s, 0⟩, ⟨0, s, 0⟩),
  (⟨0, -s, 0⟩, ⟨0, -s, 0⟩), (⟨0, 0, s⟩, ⟨0, 0, s⟩), (⟨0, 0, -s⟩, ⟨0, 0, -s⟩)]

theorem crossed_n (s : ℝ) : nMatrix (centred (crossed s)) =
    ⟨6 * s ^ 2, 0, 0, 0, -(2 * s ^ 2), 0, 0, -(2 * s ^ 2), 0, -(2 * s ^ 2)⟩ := by
  have hc : centred (crossed s) = crossed s := by
    rw [← centred_eq]
    have h1 : mean (crossed s) Prod.fst = 0 := by ext <;> simp [mean, total, crossed]
    have h2 : mean (crossed s) Prod.snd = 0 := by ext <;> simp [mean, total, crossed]
    rw [h1, h2]
    have hz : ∀ a : V3, a - 0 = a := fun a => by ext <;> simp
    simp only [hz, Prod.mk.eta, List.map_id']
  rw [hc]
  ext <;> simp [nMatrix, total, crossed] <;> ring

/-- The hypotheses of the theorems: for the six points at distance one a matrix is returned, and the bisection changes no
sign. -/
example : (∃ m, superimpose 50 (crossed 1) false = some (.ok (.mat m))) ∧
    ∀ x ∈ tested 50 (tridiagonalize (nMatrix (centred (crossed 1)))),
      Clean (tridiagonalize (nMatrix (centred (crossed 1)))) (precision (tridiagonalize (nMatrix (centred (crossed 1))))) x := by
  have hT : tridiagonalize (nMatrix (centred (crossed 1))) = ⟨6, -2, -2, -2, 0, 0, 0⟩ := by
    rw [crossed_n, tridiagonalize_diagonal]; norm_num
  have hb : bounds ⟨6, -2, -2, -2, 0, 0, 0⟩ = (-2, 6) := by norm_num [bounds]
  obtain ⟨r, -, -, hr⟩ := c109_terminates ⟨6, -2, -2, -2, 0, 0, 0⟩
  have hr := hr 50 le_rfl
  have hr' := hr
  unfold maxEigenvalue at hr'
  rw [hb] at hr'
  have hp : precision ⟨6, -2, -2, -2, 0, 0, 0⟩ = 8 / 2 ^ 50 := by rw [precision, hb]; norm_num
  rw [hp] at hr'
  obtain ⟨⟨h1, h2⟩, h3⟩ := diagonal_high 6 (-2) (-2) (-2) _ (by norm_num) 50 (-2) r (by norm_num) hr'
  constructor
  · unfold superimpose
    rw [if_neg (by simp [crossed])]
    dsimp only
    rw [centred_eq]
    unfold largest
    rw [hT, hr, Option.map_some, Option.map_some]
    have hM : (nMatrix (centred (crossed 1))).shift r = ⟨6 - r, 0, 0, 0, -2 - r, 0, 0, -2 - r, 0, -2 - r⟩ := by
      rw [crossed_n, Sym4.shift]; norm_num
    rcases eigenvector_cases ((nMatrix (centred (crossed 1))).shift r) with ⟨-, h⟩ | ⟨k, -, hv⟩
    · exfalso
      have h0 := h 0
      have hs : shortest ((nMatrix (centred (crossed 1))).shift r) ≤ 1 := by
        rw [hM, shortest_eq]
        dsimp only
        refine max_le ?_ (by norm_num)
        have k0 : |6 - r| ≤ 1 := abs_le.mpr ⟨by linarith, by norm_num at h1; linarith⟩
        have k5 : |-2 - r| ≤ 8 := abs_le.mpr ⟨by linarith, by norm_num at h1; linarith⟩
        have p := abs_mul_le (abs_mul_le (abs_mul_le k0 k5) k5) k5
        generalize (6 - r) * (-2 - r) * (-2 - r) * (-2 - r) = P at *
        obtain ⟨p1, p2⟩ := abs_le.mp p
        rw [sq_le_one_iff_abs_le_one, abs_le]
        constructor <;> linarith
      have ht : (tries ((nMatrix (centred (crossed 1))).shift r) 0).sq = (2 + r) ^ 6 := by
        rw [hM]; simp only [tries, try1, Arr4.sq]; ring
      have : (1 : ℝ) ≤ (2 + r) ^ 6 := one_le_pow₀ (by norm_num at h1; linarith)
      linarith
    · rw [hv]
      exact ⟨_, by simp only [Except.map, finish]; rw [if_neg (by simp)]⟩
  · rw [hT]
    unfold tested
    rw [hb, hp]
    intro x hx
    obtain ⟨h4, h5⟩ := h3 x hx
    intro y hy
    simp only [pivots, mul_zero, zero_div, sub_zero, List.mem_cons, List.not_mem_nil, or_false, or_self] at hy
    rintro ⟨hy1, hy2⟩
    norm_num at hy1
    rcases hy with rfl | rfl <;> linarith

/-- The extension fails if the columns of the adjugate are short. -/
theorem superimpose_fails (turns : ℕ) (l : List Pair) (scaling : Bool) (r : ℝ) (hl : l ≠ [])
    (hr : maxEigenvalue turns (tridiagonalize (nMatrix (centred l))) = some r)
    (h : ∀ k, (tries ((nMatrix (centred l)).shift r) k).sq < shortest ((nMatrix (centred l)).shift r)) :
    superimpose turns l scaling = some (.error .value) := by
  unfold superimpose
  rw [if_neg hl]
  dsimp only
  rw [centred_eq]
  unfold largest
  rw [hr, Option.map_some, Option.map_some]
  rcases eigenvector_cases ((nMatrix (centred l)).shift r) with ⟨he, -⟩ | ⟨k, hk, -⟩
  · rw [he]; rfl
  · exact absurd (h k) (not_lt.mpr hk)

/-- Three points on a line that are to stay where they are. -/
noncomputable def lined : List Pair := [(⟨1, 0, 0⟩, ⟨1, 0, 0⟩), (⟨0, 0, 0⟩, ⟨0, 0, 0⟩), (⟨-1, 0, 0⟩, ⟨-1, 0, 0⟩)]

/-- Three different points on a line are refused, though the identity takes them to their targets. -/
theorem c111_collinear_violation (turns : ℕ) (ht : 50 ≤ turns) (scaling : Bool) :
    (∀ p ∈ lined, p.1 = p.2) ∧ superimpose turns lined scaling = some (.error .value) := by
  refine ⟨by simp [lined], ?_⟩
  have hN : nMatrix (centred lined) = ⟨2, 0, 0, 0, 2, 0, 0, -2, 0, -2⟩ := by
    have hc : centred lined = lined := by
      rw [← centred_eq]
      have h1 : mean lined Prod.fst = 0 := by ext <;> simp [mean, total, lined]
      have h2 : mean lined Prod.snd = 0 := by ext <;> simp [mean, total, lined]
      rw [h1, h2]
      have hz : ∀ a : V3, a - 0 = a := fun a => by ext <;> simp
      simp only [hz, Prod.mk.eta, List.map_id']
    rw [hc]
    ext <;> simp [nMatrix, total, lined] <;> norm_num
  have hb : bounds ⟨2, 2, -2, -2, 0, 0, 0⟩ = (-2, 2) := by norm_num [bounds]
  obtain ⟨r, -, -, hr⟩ := c109_terminates ⟨2, 2, -2, -2, 0, 0, 0⟩
  have hr := hr turns ht
  have hr' := hr
  unfold maxEigenvalue at hr'
  rw [hb] at hr'
  have hp : precision ⟨2, 2, -2, -2, 0, 0, 0⟩ = 4 / 2 ^ 50 := by rw [precision, hb]; norm_num
  rw [hp] at hr'
  obtain ⟨⟨h1, h2⟩, -⟩ := diagonal_high 2 2 (-2) (-2) _ (by norm_num) turns (-2) r (by norm_num) hr'
  refine superimpose_fails turns lined scaling r (by simp [lined]) (by rw [hN, tridiagonalize_diagonal, hr]) fun k => ?_
  refine lt_of_lt_of_le ?_ (shortest_ge _)
  rw [hN]
  obtain ⟨d, rfl⟩ : ∃ d, r = 2 - d := ⟨2 - r, by ring⟩
  have hd : |d| ≤ 1 / 2 ^ 49 := abs_le.mpr ⟨by linarith, by norm_num at h1 ⊢; linarith⟩
  have hd' : |d - 4| ≤ 4 := abs_le.mpr ⟨by linarith, by norm_num at h1 ⊢; linarith⟩
  have p1 := abs_mul_le (abs_mul_le hd hd') hd'
  have p2 := abs_mul_le (abs_mul_le hd hd) hd'
  have q1 := sq_le_sq' (abs_le.mp p1).1 (abs_le.mp p1).2
  have q2 := sq_le_sq' (abs_le.mp p2).1 (abs_le.mp p2).2
  have e1 : ∀ k, (tries (Sym4.shift ⟨2, 0, 0, 0, 2, 0, 0, -2, 0, -2⟩ (2 - d)) k).sq = (d * (d - 4) * (d - 4)) ^ 2 ∨
      (tries (Sym4.shift ⟨2, 0, 0, 0, 2, 0, 0, -2, 0, -2⟩ (2 - d)) k).sq = (d * d * (d - 4)) ^ 2 := by
    intro k
    fin_cases k
    · left; simp [tries, try1, Arr4.sq, Sym4.shift]; ring
    · left; simp [tries, try2, Arr4.sq, Sym4.shift]; ring
    · right; simp [tries, try3, Arr4.sq, Sym4.shift]; ring
    · right; simp [tries, try4, Arr4.sq, Sym4.shift]; ring
  rcases e1 k with e | e <;> rw [e] <;> norm_num at q1 q2 ⊢ <;> linarith

/-- Six points on the axes that are to turn about the first axis by a right angle. -/
noncomputable def turned (s : ℝ) : List Pair := [(⟨s, 0, 0⟩, ⟨s, 0, 0⟩), (⟨-s, 0, 0⟩, ⟨-s, 0, 0⟩), (⟨0, s, 0⟩, ⟨0, 0, s⟩),
  (⟨0, -s, 0⟩, ⟨0, 0, -s⟩), (⟨0, 0, s⟩, ⟨0, -s, 0⟩), (⟨0, 0, -s⟩, ⟨0, s, 0⟩)]

theorem turned_n (s : ℝ) : nMatrix (centred (turned s)) =
    ⟨2 * s ^ 2, 4 * s ^ 2, 0, 0, 2 * s ^ 2, 0, 0, -(2 * s ^ 2), 0, -(2 * s ^ 2)⟩ := by
  have hc : centred (turned s) = turned s := by
    rw [← centred_eq]
    have h1 : mean (turned s) Prod.fst = 0 := by ext <;> simp [mean, total, turned]
    have h2 : mean (turned s) Prod.snd = 0 := by ext <;> simp [mean, total, turned]
    rw [h1, h2]
    have hz : ∀ a : V3, a - 0 = a := fun a => by ext <;> simp
    simp only [hz, Prod.mk.eta, List.map_id']
  rw [hc]
  ext <;> simp [nMatrix, total, turned] <;> ring

/-- Points a thousand or more from their centroid are refused though a quarter turn takes them to their targets. -/
theorem c111_large_violation (turns : ℕ) (ht : 50 ≤ turns) (scaling : Bool) (s : ℝ) (hs : 1000 ≤ s) :
    (∀ p ∈ turned s, p.2 = ⟨p.1.x, -p.1.z, p.1.y⟩) ∧ superimpose turns (turned s) scaling = some (.error .value) := by
  refine ⟨by simp [turned], ?_⟩
  have hN := turned_n s
  obtain ⟨S, hS⟩ : ∃ S, s ^ 2 = S := ⟨_, rfl⟩
  have hS' : 10 ^ 6 ≤ S := by rw [← hS]; nlinarith
  have hS0 : (0 : ℝ) < S := by linarith
  rw [hS] at hN
  have hT : tridiagonalize (nMatrix (centred (turned s))) = ⟨2 * S, 2 * S, -(2 * S), -(2 * S), -(4 * S), 0, 0⟩ := by
    rw [hN]
    have he : tfEps < 4 * S := by unfold tfEps; norm_num; linarith
    have he' : ¬ tfEps < 0 := not_lt.mpr eps_pos.le
    have hq : √(4 * S * (4 * S)) = 4 * S := Real.sqrt_mul_self (by linarith)
    have hn : ¬ 4 * S < 0 := by linarith
    ext <;> simp [tridiagonalize, house2, house3, he, he', hq, hn]
    field_simp
    ring_nf
    exact .inl trivial
  have hb : bounds ⟨2 * S, 2 * S, -(2 * S), -(2 * S), -(4 * S), 0, 0⟩ = (-(2 * S), 6 * S) := by
    unfold bounds
    dsimp only
    rw [abs_neg, abs_of_nonneg (by linarith : (0 : ℝ) ≤ 4 * S), abs_zero, sub_zero, sub_zero, sub_zero, add_zero, add_zero,
      add_zero, min_self, max_self, show 2 * S - 4 * S = -(2 * S) by ring, min_self, min_self,
      show 2 * S + 4 * S = 6 * S by ring, max_eq_left (by linarith : -(2 * S) ≤ 6 * S),
      max_eq_left (by linarith : -(2 * S) ≤ 6 * S)]
  have hp : precision ⟨2 * S, 2 * S, -(2 * S), -(2 * S), -(4 * S), 0, 0⟩ = 8 * S / 2 ^ 50 := by
    rw [precision, hb]
    dsimp only
    rw [abs_neg, abs_of_nonneg (by linarith), abs_of_nonneg (by linarith)]
    ring
  obtain ⟨r, -, -, hr⟩ := c109_terminates ⟨2 * S, 2 * S, -(2 * S), -(2 * S), -(4 * S), 0, 0⟩
  have hr := hr turns ht
  have hr' := hr
  unfold maxEigenvalue at hr'
  rw [hb, hp] at hr'
  have he0 : 0 ≤ 8 * S / 2 ^ 50 := by positivity
  have he1 : 8 * S / 2 ^ 50 ≤ S / 100 := by norm_num; linarith
  have hc : ∀ x < 6 * S, x = 2 * S ∨ 4 * S ≤ x →
      count ⟨2 * S, 2 * S, -(2 * S), -(2 * S), -(4 * S), 0, 0⟩ (8 * S / 2 ^ 50) x < 4 := by
    intro x hx hx'
    apply count_high
    rcases hx' with rfl | hx'
    · left; simp [pivots]
    · right
      simp only [pivots]
      have : lift (8 * S / 2 ^ 50) (2 * S - x) = 2 * S - x := by
        unfold lift
        rw [if_neg]
        rw [abs_of_nonpos (by linarith)]
        linarith
      rw [this, not_lt, show 2 * S - x - -(4 * S) * -(4 * S) / (2 * S - x) = (6 * S - x) * (x + 2 * S) / (x - 2 * S) by
        have h1 : 2 * S - x ≠ 0 := by linarith
        have h2 : x - 2 * S ≠ 0 := by linarith
        field_simp
        ring]
      exact div_nonneg (mul_nonneg (by linarith) (by linarith)) (by linarith)
  have hP : ∀ x < 6 * S, x = 2 * S ∨ 4 * S ≤ x → (6 * S + x) / 2 = 2 * S ∨ 4 * S ≤ (6 * S + x) / 2 := by
    rintro x - (rfl | hx') <;> right <;> linarith
  obtain ⟨⟨h1, h2⟩, -⟩ := bisect_high _ _ (6 * S) (fun x => x = 2 * S ∨ 4 * S ≤ x) he0 hc hP turns _ r (by linarith)
    (.inl (by ring)) hr'
  generalize 8 * S / 2 ^ 50 = eps at *
  refine superimpose_fails turns _ scaling r (by simp [turned]) (by rw [hT, hr]) fun k => ?_
  rw [shortest_eq, lt_max_iff]
  left
  rw [hN]
  obtain ⟨a, rfl⟩ : ∃ a, r = 2 * S + a := ⟨r - 2 * S, by ring⟩
  have ha : 39 / 10 * S ≤ a := by linarith
  have ha' : a ≤ 4 * S := by linarith
  have hk : (((Sym4.shift ⟨2 * S, 4 * S, 0, 0, 2 * S, 0, 0, -(2 * S), 0, -(2 * S)⟩ (2 * S + a)).m0 *
      (Sym4.shift ⟨2 * S, 4 * S, 0, 0, 2 * S, 0, 0, -(2 * S), 0, -(2 * S)⟩ (2 * S + a)).m5 *
      (Sym4.shift ⟨2 * S, 4 * S, 0, 0, 2 * S, 0, 0, -(2 * S), 0, -(2 * S)⟩ (2 * S + a)).m10 *
      (Sym4.shift ⟨2 * S, 4 * S, 0, 0, 2 * S, 0, 0, -(2 * S), 0, -(2 * S)⟩ (2 * S + a)).m15 -
      ((Sym4.shift ⟨2 * S, 4 * S, 0, 0, 2 * S, 0, 0, -(2 * S), 0, -(2 * S)⟩ (2 * S + a)).m1 *
      (Sym4.shift ⟨2 * S, 4 * S, 0, 0, 2 * S, 0, 0, -(2 * S), 0, -(2 * S)⟩ (2 * S + a)).m11) ^ 2) / 10 ^ 6) ^ 2 =
      (a ^ 2) ^ 2 * ((a + 4 * S) ^ 2) ^ 2 / 10 ^ 12 := by
    simp only [Sym4.shift]; ring
  rw [hk]
  have e1 : (tries (Sym4.shift ⟨2 * S, 4 * S, 0, 0, 2 * S, 0, 0, -(2 * S), 0, -(2 * S)⟩ (2 * S + a)) k).sq =
        ((a + 4 * S) ^ 2) ^ 2 * (16 * S ^ 2 + a ^ 2) ∨
      (tries (Sym4.shift ⟨2 * S, 4 * S, 0, 0, 2 * S, 0, 0, -(2 * S), 0, -(2 * S)⟩ (2 * S + a)) k).sq =
        (a + 4 * S) ^ 2 * (16 * S ^ 2 - a ^ 2) ^ 2 := by
    fin_cases k
    · left; simp [tries, try1, Arr4.sq, Sym4.shift]; ring
    · left; simp [tries, try2, Arr4.sq, Sym4.shift]; ring
    · right; simp [tries, try3, Arr4.sq, Sym4.shift]; ring
    · right; simp [tries, try4, Arr4.sq, Sym4.shift]; ring
  have ha0 : 0 < a := by linarith
  have b1 : 15 * S ^ 2 ≤ a ^ 2 := by nlinarith
  have b2 : a ^ 2 ≤ 16 * S ^ 2 := by nlinarith
  have b3 : 10 ^ 12 ≤ S ^ 2 := by nlinarith
  have b4 : 60 * S ^ 2 ≤ (a + 4 * S) ^ 2 := by nlinarith
  have b5 : 225 * 10 ^ 12 * S ^ 2 ≤ (a ^ 2) ^ 2 := by nlinarith
  generalize (a + 4 * S) ^ 2 = c at *
  generalize a ^ 2 = a2 at *
  generalize S ^ 2 = S2 at *
  have hc : 0 < c := by linarith
  have b6 : 225 * S2 * c ^ 2 ≤ a2 ^ 2 * c ^ 2 / 10 ^ 12 := by
    rw [le_div_iff₀ (by norm_num)]
    nlinarith [mul_le_mul_of_nonneg_right b5 (sq_nonneg c)]
  refine lt_of_lt_of_le ?_ b6
  have hc2 : 0 < c ^ 2 := by positivity
  rcases e1 with e | e <;> rw [e]
  · nlinarith
  · have : (16 * S2 - a2) ^ 2 ≤ S2 ^ 2 := sq_le_sq' (by linarith) (by linarith)
    have h3 : c * (16 * S2 - a2) ^ 2 ≤ c * S2 ^ 2 := mul_le_mul_of_nonneg_left this hc.le
    have h4 : S2 ^ 2 < 225 * S2 * c := by nlinarith
    nlinarith [mul_lt_mul_of_pos_left h4 hc]

theorem form_small (A : Matrix (Fin 4) (Fin 4) ℝ) (E : ℝ) (h : ∀ i j, |A i j| ≤ E) (v : Fin 4 → ℝ) :
    |v ⬝ᵥ (A *ᵥ v)| ≤ 4 * E * (v ⬝ᵥ v) := by
  have h0 : 0 ≤ E := le_trans (abs_nonneg _) (h 0 0)
  have h1 : ∀ i j, |v i * (A i j * v j)| ≤ E * ((v i ^ 2 + v j ^ 2) / 2) := by
    intro i j
    rw [abs_mul, abs_mul]
    have : |v i| * |v j| ≤ (v i ^ 2 + v j ^ 2) / 2 := by
      nlinarith [sq_nonneg (|v i| - |v j|), sq_abs (v i), sq_abs (v j)]
    calc |v i| * (|A i j| * |v j|) = |A i j| * (|v i| * |v j|) := by ring
      _ ≤ E * ((v i ^ 2 + v j ^ 2) / 2) := mul_le_mul (h i j) this (by positivity) h0
  have h2 : v ⬝ᵥ (A *ᵥ v) = ∑ i, ∑ j, v i * (A i j * v j) := by
    simp only [dotProduct, mulVec, Finset.mul_sum]
  rw [h2]
  calc |∑ i, ∑ j, v i * (A i j * v j)| ≤ ∑ i, ∑ j, |v i * (A i j * v j)| :=
        le_trans (Finset.abs_sum_le_sum_abs _ _) (Finset.sum_le_sum fun i _ => Finset.abs_sum_le_sum_abs _ _)
    _ ≤ ∑ i, ∑ j, E * ((v i ^ 2 + v j ^ 2) / 2) := Finset.sum_le_sum fun i _ => Finset.sum_le_sum fun j _ => h1 i j
    _ = 4 * E * (v ⬝ᵥ v) := by simp only [Fin.sum_univ_four, dotProduct]; ring

theorem total_abs (c : List Pair) (f g : Pair → ℝ) (h : ∀ p, |f p| ≤ g p) : |total c f| ≤ total c g := by
  induction c with
  | nil => simp [total_nil]
  | cons p c ih => rw [total_cons, total_cons]; exact le_trans (abs_add_le _ _) (add_le_add (h p) ih)

theorem total_plus (c : List Pair) (f g : Pair → ℝ) : total c f + total c g = total c fun p => f p + g p := by
  induction c with
  | nil => simp [total_nil]
  | cons p c ih => rw [total_cons, total_cons, total_cons, ← ih]; ring

theorem total_minus (c : List Pair) (f g : Pair → ℝ) : total c f - total c g = total c fun p => f p - g p := by
  induction c with
  | nil => simp [total_nil]
  | cons p c ih => rw [total_cons, total_cons, total_cons, ← ih]; ring

theorem total_negate (c : List Pair) (f : Pair → ℝ) : -total c f = total c fun p => -f p := by
  induction c with
  | nil => simp [total_nil]
  | cons p c ih => rw [total_cons, total_cons, ← ih]; ring

theorem n_small (c : List Pair) (i j : Fin 4) :
    |(nMatrix c).matrix i j| ≤ total c fun p => (p.1.dot p.1 + p.2.dot p.2) / 2 := by
  have key : ∀ f : Pair → ℝ, (∀ a b : V3, |f (a, b)| ≤ (a.dot a + b.dot b) / 2) →
      |total c f| ≤ total c fun p => (p.1.dot p.1 + p.2.dot p.2) / 2 := fun f h => total_abs c f _ fun p => h p.1 p.2
  have e0 : |(nMatrix c).m0| ≤ total c fun p => (p.1.dot p.1 + p.2.dot p.2) / 2 := by
    simp only [nMatrix, total_plus, total_minus, total_negate]
    refine key _ fun a b => abs_le.mpr ⟨?_, ?_⟩ <;> simp only [V3.dot] <;>
      nlinarith [sq_nonneg (a.x + b.x), sq_nonneg (a.y + b.y), sq_nonneg (a.z + b.z), sq_nonneg (a.x - b.x),
        sq_nonneg (a.y - b.y), sq_nonneg (a.z - b.z)]
  have e5 : |(nMatrix c).m5| ≤ total c fun p => (p.1.dot p.1 + p.2.dot p.2) / 2 := by
    simp only [nMatrix, total_plus, total_minus, total_negate]
    refine key _ fun a b => abs_le.mpr ⟨?_, ?_⟩ <;> simp only [V3.dot] <;>
      nlinarith [sq_nonneg (a.x + b.x), sq_nonneg (a.y + b.y), sq_nonneg (a.z + b.z), sq_nonneg (a.x - b.x),
        sq_nonneg (a.y - b.y), sq_nonneg (a.z - b.z)]
  have e10 : |(nMatrix c).m10| ≤ total c fun p => (p.1.dot p.1 + p.2.dot p.2) / 2 := by
    simp only [nMatrix, total_plus, total_minus, total_negate]
    refine key _ fun a b => abs_le.mpr ⟨?_, ?_⟩ <;> simp only [V3.dot] <;>
      nlinarith [sq_nonneg (a.x + b.x), sq_nonneg (a.y + b.y), sq_nonneg (a.z + b.z), sq_nonneg (a.x - b.x),
        sq_nonneg (a.y - b.y), sq_nonneg (a.z - b.z)]
  have e15 : |(nMatrix c).m15| ≤ total c fun p => (p.1.dot p.1 + p.2.dot p.2) / 2 := by
    simp only [nMatrix, total_plus, total_minus, total_negate]
    refine key _ fun a b => abs_le.mpr ⟨?_, ?_⟩ <;> simp only [V3.dot] <;>
      nlinarith [sq_nonneg (a.x + b.x), sq_nonneg (a.y + b.y), sq_nonneg (a.z + b.z), sq_nonneg (a.x - b.x),
        sq_nonneg (a.y - b.y), sq_nonneg (a.z - b.z)]
  have e1 : |(nMatrix c).m1| ≤ total c fun p => (p.1.dot p.1 + p.2.dot p.2) / 2 := by
    simp only [nMatrix, total_plus, total_minus, total_negate]
    refine key _ fun a b => abs_le.mpr ⟨?_, ?_⟩ <;> simp only [V3.dot] <;>
      nlinarith [sq_nonneg (a.y + b.z), sq_nonneg (a.y - b.z), sq_nonneg (a.z + b.y), sq_nonneg (a.z - b.y),
        sq_nonneg a.x, sq_nonneg b.x]
  have e11 : |(nMatrix c).m11| ≤ total c fun p => (p.1.dot p.1 + p.2.dot p.2) / 2 := by
    simp only [nMatrix, total_plus, total_minus, total_negate]
    refine key _ fun a b => abs_le.mpr ⟨?_, ?_⟩ <;> simp only [V3.dot] <;>
      nlinarith [sq_nonneg (a.y + b.z), sq_nonneg (a.y - b.z), sq_nonneg (a.z + b.y), sq_nonneg (a.z - b.y),
        sq_nonneg a.x, sq_nonneg b.x]
  have e2 : |(nMatrix c).m2| ≤ total c fun p => (p.1.dot p.1 + p.2.dot p.2) / 2 := by
    simp only [nMatrix, total_plus, total_minus, total_negate]
    refine key _ fun a b => abs_le.mpr ⟨?_, ?_⟩ <;> simp only [V3.dot] <;>
      nlinarith [sq_nonneg (a.x + b.z), sq_nonneg (a.x - b.z), sq_nonneg (a.z + b.x), sq_nonneg (a.z - b.x),
        sq_nonneg a.y, sq_nonneg b.y]
  have e7 : |(nMatrix c).m7| ≤ total c fun p => (p.1.dot p.1 + p.2.dot p.2) / 2 := by
    simp only [nMatrix, total_plus, total_minus, total_negate]
    refine key _ fun a b => abs_le.mpr ⟨?_, ?_⟩ <;> simp only [V3.dot] <;>
      nlinarith [sq_nonneg (a.x + b.z), sq_nonneg (a.x - b.z), sq_nonneg (a.z + b.x), sq_nonneg (a.z - b.x),
        sq_nonneg a.y, sq_nonneg b.y]
  have e3 : |(nMatrix c).m3| ≤ total c fun p => (p.1.dot p.1 + p.2.dot p.2) / 2 := by
    simp only [nMatrix, total_plus, total_minus, total_negate]
    refine key _ fun a b => abs_le.mpr ⟨?_, ?_⟩ <;> simp only [V3.dot] <;>
      nlinarith [sq_nonneg (a.x + b.y), sq_nonneg (a.x - b.y), sq_nonneg (a.y + b.x), sq_nonneg (a.y - b.x),
        sq_nonneg a.z, sq_nonneg b.z]
  have e6 : |(nMatrix c).m6| ≤ total c fun p => (p.1.dot p.1 + p.2.dot p.2) / 2 := by
    simp only [nMatrix, total_plus, total_minus, total_negate]
    refine key _ fun a b => abs_le.mpr ⟨?_, ?_⟩ <;> simp only [V3.dot] <;>
      nlinarith [sq_nonneg (a.x + b.y), sq_nonneg (a.x - b.y), sq_nonneg (a.y + b.x), sq_nonneg (a.y - b.x),
        sq_nonneg a.z, sq_nonneg b.z]
  generalize (total c fun p => (p.1.dot p.1 + p.2.dot p.2) / 2) = E at *
  fin_cases i <;> fin_cases j <;> simp [Sym4.matrix] <;> assumption

/-- Points near one another are refused: if the squares of the distances from the two centroids add up to at most a
ten-thousandth, the extension raises a `ValueError`. -/
theorem c111_small_violation (turns : ℕ) (ht : 50 ≤ turns) (l : List Pair) (scaling : Bool) (hl : l ≠ [])
    (hs : (total (centred l) fun p => p.1.dot p.1 + p.2.dot p.2) ≤ 1 / 10000) :
    superimpose turns l scaling = some (.error .value) := by
  have hE := n_small (centred l)
  have h2 : (total (centred l) fun p => (p.1.dot p.1 + p.2.dot p.2) / 2) =
      (total (centred l) fun p => p.1.dot p.1 + p.2.dot p.2) / 2 := by
    generalize centred l = c
    induction c with
    | nil => simp [total_nil]
    | cons p c ih => rw [total_cons, total_cons, ih]; ring
  rw [h2] at hE
  have hE' : ∀ i j, |(nMatrix (centred l)).matrix i j| ≤ 1 / 20000 := fun i j => le_trans (hE i j) (by linarith)
  obtain ⟨r, hr1, hr2, hr⟩ := c109_terminates (tridiagonalize (nMatrix (centred l)))
  refine superimpose_fails turns l scaling r hl (hr turns ht) fun k => ?_
  have hf := form_small _ _ hE'
  have hb := tri_below (nMatrix (centred l)) (4 * (1 / 20000)) fun v => (abs_le.mp (hf v)).2
  have ha := tri_above (nMatrix (centred l)) (-(4 * (1 / 20000))) fun v => by linarith [(abs_le.mp (hf v)).1]
  have hp := precision_le _ _ _ hb ha (by norm_num) (by norm_num)
  rw [precision] at hp
  have hr' : |r| ≤ 3 * (4 * (1 / 20000) + 1 / 2 ^ 49) - 3 * (-(4 * (1 / 20000)) - 1 / 2 ^ 49) := by
    have k1 := neg_abs_le (bounds (tridiagonalize (nMatrix (centred l)))).1
    have k2 := le_abs_self (bounds (tridiagonalize (nMatrix (centred l)))).2
    have k3 := abs_nonneg (bounds (tridiagonalize (nMatrix (centred l)))).1
    have k4 := abs_nonneg (bounds (tridiagonalize (nMatrix (centred l)))).2
    rw [le_div_iff₀ (by norm_num)] at hp
    rw [abs_le]
    constructor <;> linarith
  have hA : ∀ i j, |((nMatrix (centred l)).shift r).matrix i j| ≤ 126 / 100000 := by
    intro i j
    rw [shift_matrix, Matrix.sub_apply, Matrix.smul_apply, smul_eq_mul]
    have h1 : |r * (1 : Matrix (Fin 4) (Fin 4) ℝ) i j| ≤ |r| := by
      rw [Matrix.one_apply]
      split_ifs <;> simp
    have h3 := abs_sub ((nMatrix (centred l)).matrix i j) (r * (1 : Matrix (Fin 4) (Fin 4) ℝ) i j)
    have h4 := hE' i j
    norm_num at hr' h4 ⊢
    linarith
  have hadj := adjugate_small _ _ hA
  refine lt_of_lt_of_le ?_ (shortest_ge _)
  have hq : (tries ((nMatrix (centred l)).shift r) k).sq = ∑ i, ((nMatrix (centred l)).shift r).matrix.adjugate i k ^ 2 := by
    rw [sq_vec, dotProduct]
    exact Finset.sum_congr rfl fun i _ => by rw [tries_vec]; ring
  rw [hq, Fin.sum_univ_four]
  have h5 : ∀ i, ((nMatrix (centred l)).shift r).matrix.adjugate i k ^ 2 ≤ (6 * (126 / 100000) ^ 3) ^ 2 := fun i =>
    sq_le_sq' (abs_le.mp (hadj i k)).1 (abs_le.mp (hadj i k)).2
  have h6 := h5 0; have h7 := h5 1; have h8 := h5 2; have h9 := h5 3
  norm_num at h6 h7 h8 h9 ⊢
  linarith

/-- The six points on the axes at a distance of a thousandth are not moved by the identity, and are refused. -/
example (scaling : Bool) : superimpose 50 (crossed (1 / 1000)) scaling = some (.error .value) := by
  refine c111_small_violation 50 le_rfl _ scaling (by simp [crossed]) ?_
  have hc : centred (crossed (1 / 1000)) = crossed (1 / 1000) := by
    rw [← centred_eq]
    have h1 : mean (crossed (1 / 1000)) Prod.fst = 0 := by ext <;> simp [mean, total, crossed]
    have h2 : mean (crossed (1 / 1000)) Prod.snd = 0 := by ext <;> simp [mean, total, crossed]
    rw [h1, h2]
    have hz : ∀ a : V3, a - 0 = a := fun a => by ext <;> simp
    simp only [hz, Prod.mk.eta, List.map_id']
  rw [hc]
  norm_num [total, crossed, V3.dot]

/-- A list of points of which one set is a single point has the matrix zero. -/
theorem n_zero (l : List Pair) (hl : l ≠ []) (h : (∀ p ∈ l, ∀ p' ∈ l, p.1 = p'.1) ∨ ∀ p ∈ l, ∀ p' ∈ l, p.2 = p'.2) :
    nMatrix (centred l) = ⟨0, 0, 0, 0, 0, 0, 0, 0, 0, 0⟩ := by
  have hn : (l.length : ℝ) ≠ 0 := by simpa using hl
  have hm : ∀ f : Pair → V3, (∀ p ∈ l, ∀ p' ∈ l, f p = f p') → ∀ p ∈ l, f p - mean l f = 0 := by
    intro f hf p hp
    have ht : ∀ g : V3 → ℝ, (total l fun q => g (f q)) = l.length * g (f p) := by
      intro g
      rw [total_congr fun q hq => by rw [hf q hq p hp]]
      simp [total]
    have hx := ht V3.x; have hy := ht V3.y; have hz := ht V3.z
    ext <;> simp [mean, hx, hy, hz, hn]
  have hz : ∀ g h : V3 → ℝ, g 0 = 0 → h 0 = 0 → (total (centred l) fun p => g p.1 * h p.2) = 0 := by
    intro g h' hg hh
    rw [← centred_eq, total_map]
    rw [total_congr (g := fun _ => 0)]
    · simp [total]
    · intro p hp
      dsimp only
      rcases h with h | h
      · rw [hm Prod.fst h p hp, hg, zero_mul]
      · rw [hm Prod.snd h p hp, hh, mul_zero]
  have e1 := hz V3.x V3.x rfl rfl; have e2 := hz V3.x V3.y rfl rfl; have e3 := hz V3.x V3.z rfl rfl
  have e4 := hz V3.y V3.x rfl rfl; have e5 := hz V3.y V3.y rfl rfl; have e6 := hz V3.y V3.z rfl rfl
  have e7 := hz V3.z V3.x rfl rfl; have e8 := hz V3.z V3.y rfl rfl; have e9 := hz V3.z V3.z rfl rfl
  simp [nMatrix, e1, e2, e3, e4, e5, e6, e7, e8, e9]

/-- If all points of one set are the same, the extension raises a `ValueError`; the Python function returns a
translation. -/
theorem c111_coincident_violation (turns : ℕ) (l : List Pair) (scaling : Bool) (hl : l ≠ [])
    (h : (∀ p ∈ l, ∀ p' ∈ l, p.1 = p'.1) ∨ ∀ p ∈ l, ∀ p' ∈ l, p.2 = p'.2) :
    superimpose turns l scaling = some (.error .value) := by
  unfold superimpose
  rw [if_neg hl]
  dsimp only
  rw [centred_eq, n_zero l hl h]
  unfold largest
  rw [tridiagonalize_diagonal]
  have hb : bounds ⟨0, 0, 0, 0, 0, 0, 0⟩ = (0, 0) := by norm_num [bounds]
  have hm : maxEigenvalue turns ⟨0, 0, 0, 0, 0, 0, 0⟩ = some 0 := by
    unfold maxEigenvalue precision
    rw [hb]
    cases turns <;> norm_num [bisect]
  rw [hm]
  have hs : Sym4.shift ⟨0, 0, 0, 0, 0, 0, 0, 0, 0, 0⟩ 0 = ⟨0, 0, 0, 0, 0, 0, 0, 0, 0, 0⟩ := by simp [Sym4.shift]
  rw [Option.map_some, Option.map_some, hs]
  have he : eigenvector ⟨0, 0, 0, 0, 0, 0, 0, 0, 0, 0⟩ = none := by
    rcases eigenvector_cases ⟨0, 0, 0, 0, 0, 0, 0, 0, 0, 0⟩ with ⟨h, -⟩ | ⟨k, h, -⟩
    · exact h
    · exfalso
      have h1 := shortest_ge ⟨0, 0, 0, 0, 0, 0, 0, 0, 0, 0⟩
      have h2 : (tries ⟨0, 0, 0, 0, 0, 0, 0, 0, 0, 0⟩ k).sq = 0 := by
        fin_cases k <;> simp [tries, try1, try2, try3, try4, Arr4.sq]
      rw [h2] at h
      norm_num at h1
      linarith
  rw [he]
  rfl

/-- One pair of points: the Python function moves the first to the second. -/
example : superimpose 50 [(⟨1, 2, 3⟩, ⟨4, 5, 6⟩)] false = some (.error .value) :=
  c111_coincident_violation 50 _ _ (by simp) (.inl (by simp))

/-- Not-a-number is returned exactly for no points at all: the number of points is not tested. -/
theorem c111_nan (turns : ℕ) (l : List Pair) (scaling : Bool) :
    superimpose turns l scaling = some (.ok .nan) ↔ l = [] := by
  constructor
  · intro h
    by_contra hl
    by_cases hs : (total l fun p => (p.1 - mean l Prod.fst).dot (p.1 - mean l Prod.fst)) = 0
    · have h0 := total_zero (fun p => dot_self_nonneg _) hs
      have heq : ∀ p ∈ l, p.1 = mean l Prod.fst := by
        intro p hp
        have := dot_self_eq_zero.mp (h0 p hp)
        have hx := congrArg V3.x this
        have hy := congrArg V3.y this
        have hz := congrArg V3.z this
        simp only [sub_x, sub_y, sub_z, zero_x, zero_y, zero_z] at hx hy hz
        ext <;> linarith
      rw [c111_coincident_violation turns l scaling hl (.inl fun p hp p' hp' => by rw [heq p hp, heq p' hp'])] at h
      simp at h
    · unfold superimpose at h
      rw [if_neg hl] at h
      dsimp only at h
      rw [Option.map_eq_some_iff] at h
      obtain ⟨r, -, h⟩ := h
      cases r with
      | error e => simp [Except.map] at h
      | ok v =>
        simp only [Except.map, Except.ok.injEq] at h
        unfold finish at h
        dsimp only at h
        rw [if_neg (fun hc => hs hc.2)] at h
        simp at h
  · rintro rfl
    unfold superimpose
    rw [if_pos rfl]

end RayOpt.Compiled
