import Verif.Model.Superimpose
import Verif.Props.Homog
import Verif.Props.Quat
import Mathlib.LinearAlgebra.Matrix.NonsingularInverse

/-!
C97: fitting a rigid motion or a similarity to two sets of points (rayopt/transformations.py 887-1044).
-/

namespace RayOpt

open V3 H4 Super

namespace Super

/-- The sum of the squared distances between the images of the first points and the second points. -/
def misfit (l : List Pair) (f : V3 → V3) : ℝ := total l fun p => (f p.1 - p.2).dot (f p.1 - p.2)

/-- Orthogonal matrices. -/
structure Orth (r : M3) : Prop where
  left : r.mul r.T = M3.one
  right : r.T.mul r = M3.one

/-- The contract of `numpy.linalg.svd` for a square matrix: orthogonal factors, singular values not negative and
in decreasing order. -/
structure IsSvd (h u : M3) (s : V3) (vh : M3) : Prop where
  orthU : Orth u
  orthVh : Orth vh
  product : (u.mul ⟨s.x, 0, 0, 0, s.y, 0, 0, 0, s.z⟩).mul vh = h
  xy : s.y ≤ s.x
  yz : s.z ≤ s.y
  z : 0 ≤ s.z

/-- The contract of `numpy.linalg.eigh` for a 4x4 matrix: eigenvectors of length one at right angles; `j` is the
largest eigenvalue. -/
structure IsEigh (n : Quat → Quat) (w : Fin 4 → ℝ) (v : Fin 4 → Quat) (j : Fin 4) : Prop where
  eig : ∀ i, n (v i) = (v i).scale (w i)
  orth : ∀ i k, (v i).dot (v k) = if i = k then 1 else 0
  max : ∀ i, w i ≤ w j

/-- The scalar product of two matrices. -/
def frob (a b : M3) : ℝ := a.a00 * b.a00 + a.a01 * b.a01 + a.a02 * b.a02 + a.a10 * b.a10 + a.a11 * b.a11 +
  a.a12 * b.a12 + a.a20 * b.a20 + a.a21 * b.a21 + a.a22 * b.a22

theorem total_nil (f : Pair → ℝ) : total [] f = 0 := rfl

theorem total_cons (p : Pair) (l : List Pair) (f : Pair → ℝ) : total (p :: l) f = f p + total l f := by
  simp [total]

theorem total_map (l : List Pair) (g : Pair → Pair) (f : Pair → ℝ) :
    total (l.map g) f = total l fun p => f (g p) := by
  simp [total, Function.comp_def]

theorem total_congr {l : List Pair} {f g : Pair → ℝ} (h : ∀ p ∈ l, f p = g p) : total l f = total l g := by
  unfold total; rw [List.map_congr_left h]

theorem total_nonneg {l : List Pair} {f : Pair → ℝ} (h : ∀ p, 0 ≤ f p) : 0 ≤ total l f := by
  induction l with
  | nil => exact le_refl _
  | cons p l ih => rw [total_cons]; linarith [h p]

theorem total_add_const (l : List Pair) (f : Pair → ℝ) (c : ℝ) :
    (total l fun p => f p + c) = total l f + l.length * c := by
  induction l with
  | nil => simp [total_nil]
  | cons p l ih => simp only [total_cons, ih, List.length_cons]; push_cast; ring

/-- The centred points have their centroids at the origin. -/
theorem centred_zero {l : List Pair} (h : l ≠ []) :
    (total (centred l) fun p => p.1.x) = 0 ∧ (total (centred l) fun p => p.1.y) = 0 ∧
    (total (centred l) fun p => p.1.z) = 0 ∧ (total (centred l) fun p => p.2.x) = 0 ∧
    (total (centred l) fun p => p.2.y) = 0 ∧ (total (centred l) fun p => p.2.z) = 0 := by
  have hl : (l.length : ℝ) ≠ 0 := by
    have := List.length_pos_iff.mpr h
    positivity
  simp only [centred, total_map, add_x, add_y, add_z, neg_x, neg_y, neg_z, total_add_const, mean]
  refine ⟨?_, ?_, ?_, ?_, ?_, ?_⟩ <;> field_simp <;> ring

/-- Moving all differences by the same vector. -/
theorem misfit_shift (c : List Pair) (r : M3) (e : V3) :
    (total c fun p => (r.mulVec p.1 - p.2 + e).dot (r.mulVec p.1 - p.2 + e)) =
      (total c fun p => (r.mulVec p.1 - p.2).dot (r.mulVec p.1 - p.2)) +
      2 * e.dot (r.mulVec ⟨total c fun p => p.1.x, total c fun p => p.1.y, total c fun p => p.1.z⟩ -
        ⟨total c fun p => p.2.x, total c fun p => p.2.y, total c fun p => p.2.z⟩) + c.length * e.dot e := by
  induction c with
  | nil => simp [total_nil, M3.mulVec, dot]
  | cons p c ih =>
    simp only [total_cons, ih, List.length_cons]
    simp only [M3.mulVec, dot, add_x, add_y, add_z, sub_x, sub_y, sub_z]
    push_cast
    ring

/-- The misfit of centred points in terms of the covariance. -/
theorem misfit_cov (c : List Pair) {r : M3} (hr : r.IsRot) (f : ℝ) :
    (total c fun p => ((smul3 f r).mulVec p.1 - p.2).dot ((smul3 f r).mulVec p.1 - p.2)) =
      f ^ 2 * (total c fun p => p.1.dot p.1) + (total c fun p => p.2.dot p.2) - 2 * f * frob r (cov c) := by
  have h := hr.right
  simp only [M3.mul, M3.T, M3.one, M3.mk.injEq] at h
  obtain ⟨h00, h01, h02, h10, h11, h12, h20, h21, h22⟩ := h
  induction c with
  | nil => simp [total_nil, cov, frob]
  | cons p c ih =>
    have hn : (r.mulVec p.1).dot (r.mulVec p.1) = p.1.dot p.1 := by
      simp only [M3.mulVec, dot]
      linear_combination p.1.x * p.1.x * h00 + 2 * p.1.x * p.1.y * h01 + 2 * p.1.x * p.1.z * h02
        + p.1.y * p.1.y * h11 + 2 * p.1.y * p.1.z * h12 + p.1.z * p.1.z * h22
    have e : ((smul3 f r).mulVec p.1 - p.2).dot ((smul3 f r).mulVec p.1 - p.2) =
        f ^ 2 * (r.mulVec p.1).dot (r.mulVec p.1) + p.2.dot p.2 - 2 * f * p.2.dot (r.mulVec p.1) := by
      simp only [M3.mulVec, smul3, dot, sub_x, sub_y, sub_z]; ring
    have e2 : frob r (cov (p :: c)) = p.2.dot (r.mulVec p.1) + frob r (cov c) := by
      simp only [frob, cov, total_cons, M3.mulVec, dot]; ring
    rw [total_cons, total_cons, total_cons, ih, e, hn, e2]
    ring

/-- A motion in terms of the centred points. -/
theorem misfit_centred (l : List Pair) (r : M3) (t : V3) :
    misfit l (fun x => r.mulVec x + t) = total (centred l) fun p =>
      (r.mulVec p.1 - p.2 + (r.mulVec (mean l Prod.fst) + t - mean l Prod.snd)).dot
        (r.mulVec p.1 - p.2 + (r.mulVec (mean l Prod.fst) + t - mean l Prod.snd)) := by
  simp only [misfit, centred, total_map]
  apply total_congr
  intro p _
  generalize mean l Prod.fst = a
  generalize mean l Prod.snd = b
  simp only [M3.mulVec, dot, add_x, add_y, add_z, sub_x, sub_y, sub_z, neg_x, neg_y, neg_z]
  ring

/-- The matrix returned maps points by rotation and scale about the centroids. -/
theorem place_some {l : List Pair} {scale : Bool} {r : M3} {m : H4} (h : place l scale r = some m) :
    ∃ f, (scale = false → f = 1) ∧ (scale = true → ratio (centred l) = some f) ∧ m.a = smul3 f r ∧
      m.b = mean l Prod.snd - (smul3 f r).mulVec (mean l Prod.fst) ∧ m.c = 0 ∧ m.d = 1 := by
  simp only [place, Option.map_eq_some_iff] at h
  obtain ⟨f, hf, rfl⟩ := h
  have e : (translation (- -mean l Prod.snd)).mul
      ((⟨smul3 f r, 0, 0, 1⟩ : H4).mul (translation (-mean l Prod.fst))) =
      ⟨smul3 f r, mean l Prod.snd - (smul3 f r).mulVec (mean l Prod.fst), 0, 1⟩ := by
    generalize mean l Prod.fst = a
    generalize mean l Prod.snd = b
    ext <;> simp [H4.mul, translation, M3.one, add3, outer, M3.mul, M3.mulVec, M3.vecMul, dot, smul3] <;> ring
  rw [e]
  refine ⟨f, ?_, ?_, ?_, ?_, ?_, ?_⟩
  · rintro rfl; simpa using hf.symm
  · rintro rfl; simpa using hf
  · ext <;> simp [H4.unit, smul3]
  · ext <;> simp [H4.unit]
  · ext <;> simp [H4.unit]
  · simp [H4.unit]

theorem point_affine {m : H4} (hc : m.c = 0) (hd : m.d = 1) (x : V3) :
    point (m.app (x, 1)) = m.a.mulVec x + m.b := by
  ext <;> simp [point, app, hc, hd, dot]

/-- If the rotation is the best one for the covariance, then the matrix is the best motion. -/
theorem best {l : List Pair} (hl : l ≠ []) {scale : Bool} {r : M3} (hr : r.IsRot)
    (hbest : ∀ q : M3, q.IsRot → frob q (cov (centred l)) ≤ frob r (cov (centred l)))
    {m : H4} (h : place l scale r = some m) :
    ∃ f, 0 ≤ f ∧ (scale = false → f = 1) ∧ (scale = true → ratio (centred l) = some f) ∧ m.a = smul3 f r ∧
      point (m.app (mean l Prod.fst, 1)) = mean l Prod.snd ∧
      ∀ (q : M3) (t : V3), q.IsRot →
        misfit l (fun x => point (m.app (x, 1))) ≤ misfit l fun x => (smul3 f q).mulVec x + t := by
  obtain ⟨f, h1, h2, ha, hb, hc, hd⟩ := place_some h
  have hf : 0 ≤ f := by
    cases scale
    · rw [h1 rfl]; norm_num
    · have := h2 rfl
      simp only [ratio] at this
      split_ifs at this
      obtain rfl := Option.some.inj this
      exact Real.sqrt_nonneg _
  refine ⟨f, hf, h1, h2, ha, ?_, ?_⟩
  · rw [point_affine hc hd, ha, hb]; ext <;> simp
  · intro q t hq
    obtain ⟨z1, z2, z3, z4, z5, z6⟩ := centred_zero hl
    have e1 : misfit l (fun x => point (m.app (x, 1))) =
        total (centred l) fun p => ((smul3 f r).mulVec p.1 - p.2).dot ((smul3 f r).mulVec p.1 - p.2) := by
      have : (fun x => point (m.app (x, 1))) = fun x => (smul3 f r).mulVec x +
          (mean l Prod.snd - (smul3 f r).mulVec (mean l Prod.fst)) := by
        funext x; rw [point_affine hc hd, ha, hb]
      rw [this, misfit_centred]
      apply total_congr
      intro p _
      have : (smul3 f r).mulVec (mean l Prod.fst) + (mean l Prod.snd - (smul3 f r).mulVec (mean l Prod.fst)) -
          mean l Prod.snd = 0 := by ext <;> simp
      rw [this]
      simp only [dot, add_x, add_y, add_z, zero_x, zero_y, zero_z]
      ring
    rw [e1, misfit_centred, misfit_shift, z1, z2, z3, z4, z5, z6, misfit_cov _ hr, misfit_cov _ hq]
    have hb := hbest q hq
    generalize (smul3 f q).mulVec (mean l Prod.fst) + t - mean l Prod.snd = e
    have e0 : e.dot ((smul3 f q).mulVec ⟨0, 0, 0⟩ - ⟨0, 0, 0⟩) = 0 := by
      simp [M3.mulVec, dot]
    rw [e0]
    have hee : 0 ≤ ((centred l).length : ℝ) * e.dot e := mul_nonneg (Nat.cast_nonneg _) (dot_self_nonneg e)
    nlinarith [mul_le_mul_of_nonneg_left hb hf]

theorem Orth.T {r : M3} (h : Orth r) : Orth r.T := ⟨h.right, h.left⟩

theorem Orth.mul {r s : M3} (hr : Orth r) (hs : Orth s) : Orth (r.mul s) := by
  constructor
  · rw [M3.T_mul, M3.mul_assoc, ← M3.mul_assoc s, hs.left, M3.one_mul, hr.left]
  · rw [M3.T_mul, M3.mul_assoc, ← M3.mul_assoc r.T, hr.right, M3.one_mul, hs.right]

theorem Orth.det {r : M3} (h : Orth r) : r.det = 1 ∨ r.det = -1 := by
  have h1 : (r.mul r.T).det = 1 := by rw [h.left]; simp [M3.det, M3.one]
  rw [M3.det_mul, M3.det_T] at h1
  have : (r.det - 1) * (r.det + 1) = 0 := by linear_combination h1
  rcases mul_eq_zero.mp this with h' | h'
  · left; linarith
  · right; linarith

theorem Orth.diag {r : M3} (h : Orth r) : r.a00 ≤ 1 ∧ r.a11 ≤ 1 ∧ r.a22 ≤ 1 := by
  have h := h.left
  simp only [M3.mul, M3.T, M3.one, M3.mk.injEq] at h
  obtain ⟨h00, -, -, -, h11, -, -, -, h22⟩ := h
  refine ⟨?_, ?_, ?_⟩
  · nlinarith [mul_self_nonneg r.a01, mul_self_nonneg r.a02, sq_nonneg (r.a00 - 1)]
  · nlinarith [mul_self_nonneg r.a10, mul_self_nonneg r.a12, sq_nonneg (r.a11 - 1)]
  · nlinarith [mul_self_nonneg r.a20, mul_self_nonneg r.a21, sq_nonneg (r.a22 - 1)]

theorem trace_rot {r : M3} (h : r.IsRot) : -1 ≤ tr r := by
  obtain ⟨q, hq, rfl⟩ := c57_onto r h
  have h1 : tfEps ≤ q.dot q := by rw [hq]; unfold tfEps; norm_num
  rw [Quat.matrix_eq h1, hq]
  simp only [tr]
  simp only [Quat.dot] at hq
  nlinarith [mul_self_nonneg q.w]

theorem trace_improper {r : M3} (h : Orth r) (hd : r.det = -1) : tr r ≤ 1 := by
  have h' : (smul3 (-1) r).IsRot := by
    refine ⟨?_, ?_, ?_⟩
    · rw [← h.left]; ext <;> simp [M3.mul, M3.T, smul3]
    · rw [← h.right]; ext <;> simp [M3.mul, M3.T, smul3]
    · have : (smul3 (-1) r).det = -r.det := by simp only [M3.det, smul3]; ring
      rw [this, hd]; norm_num
  have := trace_rot h'
  simp only [tr, smul3] at this ⊢
  linarith

/-- The rotation of the singular value decomposition is the best one. -/
theorem kabsch_best {h u vh : M3} {s : V3} (hs : IsSvd h u s vh) :
    (kabsch u vh).IsRot ∧ ∀ q : M3, q.IsRot → frob q h ≤ frob (kabsch u vh) h := by
  obtain ⟨hu, hv, hp, hxy, hyz, hz⟩ := hs
  have huv := hu.mul hv
  have hW : ∀ q : M3, frob q h = s.x * ((u.T.mul q).mul vh.T).a00 + s.y * ((u.T.mul q).mul vh.T).a11 +
      s.z * ((u.T.mul q).mul vh.T).a22 := by
    intro q; rw [← hp]; simp only [frob, M3.mul, M3.T]; ring
  -- the factors of the rotation chosen
  have hR : ∀ e : ℝ, (u.T.mul ((u.mul ⟨1, 0, 0, 0, 1, 0, 0, 0, e⟩).mul vh)).mul vh.T = ⟨1, 0, 0, 0, 1, 0, 0, 0, e⟩ := by
    intro e
    rw [M3.mul_assoc, M3.mul_assoc u, M3.mul_assoc u, M3.mul_assoc _ vh, hv.left]
    have : (⟨1, 0, 0, 0, 1, 0, 0, 0, e⟩ : M3).mul M3.one = ⟨1, 0, 0, 0, 1, 0, 0, 0, e⟩ := by
      ext <;> simp [M3.mul, M3.one]
    rw [this, ← M3.mul_assoc, hu.right, M3.one_mul]
  have hk : ∃ e : ℝ, kabsch u vh = (u.mul ⟨1, 0, 0, 0, 1, 0, 0, 0, e⟩).mul vh ∧
      ((e = 1 ∧ (u.mul vh).det = 1) ∨ (e = -1 ∧ (u.mul vh).det = -1)) := by
    unfold kabsch
    rcases huv.det with hd | hd
    · refine ⟨1, ?_, Or.inl ⟨rfl, hd⟩⟩
      simp only [hd]
      rw [if_neg (by norm_num)]
      ext <;> simp [M3.mul]
    · refine ⟨-1, ?_, Or.inr ⟨rfl, hd⟩⟩
      simp only [hd]
      rw [if_pos (by norm_num)]
      ext <;> simp [M3.mul, add3, smul3, outer] <;> ring
  obtain ⟨e, hke, hde⟩ := hk
  have hE : Orth ⟨1, 0, 0, 0, 1, 0, 0, 0, e⟩ := by
    rcases hde with ⟨rfl, -⟩ | ⟨rfl, -⟩ <;> constructor <;> ext <;> simp [M3.mul, M3.T, M3.one]
  have hKo := (hu.mul hE).mul hv
  constructor
  · rw [hke]
    refine ⟨hKo.left, hKo.right, ?_⟩
    rw [M3.det_mul, M3.det_mul, show (⟨1, 0, 0, 0, 1, 0, 0, 0, e⟩ : M3).det = e by simp [M3.det]]
    rcases hde with ⟨rfl, hd⟩ | ⟨rfl, hd⟩ <;> rw [M3.det_mul] at hd <;> linarith
  · intro q hq
    rw [hW q, hW, hke, hR]
    have ho : Orth ((u.T.mul q).mul vh.T) := (hu.T.mul ⟨hq.left, hq.right⟩).mul hv.T
    have hdet : ((u.T.mul q).mul vh.T).det = (u.mul vh).det := by
      rw [M3.det_mul, M3.det_mul, M3.det_T, M3.det_T, hq.det1, M3.det_mul]; ring
    obtain ⟨d0, d1, d2⟩ := ho.diag
    have htr : (u.mul vh).det = -1 → tr ((u.T.mul q).mul vh.T) ≤ 1 := fun h' => trace_improper ho (hdet.trans h')
    generalize (u.T.mul q).mul vh.T = w at *
    simp only [tr] at htr
    dsimp only
    rcases hde with ⟨rfl, -⟩ | ⟨rfl, hd⟩
    · nlinarith
    · have := htr hd
      nlinarith

/-- Four vectors of length one at right angles are a basis. -/
theorem expand {v : Fin 4 → Quat} (h : ∀ i k, (v i).dot (v k) = if i = k then 1 else 0) (x : Quat) :
    x = ((((v 0).scale ((v 0).dot x)).add ((v 1).scale ((v 1).dot x))).add ((v 2).scale ((v 2).dot x))).add
      ((v 3).scale ((v 3).dot x)) := by
  let V : Matrix (Fin 4) (Fin 4) ℝ := fun i => ![(v i).w, (v i).x, (v i).y, (v i).z]
  have h1 : V * V.transpose = 1 := by
    ext i k
    rw [Matrix.mul_apply, Fin.sum_univ_four, Matrix.one_apply, ← h i k]
    rfl
  have h2 : V.transpose * V = 1 := mul_eq_one_comm.mp h1
  have h3 : ∀ a b, ∑ i, V i a * V i b = (1 : Matrix (Fin 4) (Fin 4) ℝ) a b := by
    intro a b; rw [← h2, Matrix.mul_apply]; rfl
  have e := fun a b => h3 a b
  simp only [Fin.sum_univ_four] at e
  have e00 := e 0 0; have e01 := e 0 1; have e02 := e 0 2; have e03 := e 0 3
  have e11 := e 1 1; have e12 := e 1 2; have e13 := e 1 3
  have e22 := e 2 2; have e23 := e 2 3; have e33 := e 3 3
  simp [V] at e00 e01 e02 e03 e11 e12 e13 e22 e23 e33
  ext <;> simp only [Quat.add, Quat.scale, Quat.dot]
  · linear_combination -x.w * e00 - x.x * e01 - x.y * e02 - x.z * e03
  · linear_combination -x.w * e01 - x.x * e11 - x.y * e12 - x.z * e13
  · linear_combination -x.w * e02 - x.x * e12 - x.y * e22 - x.z * e23
  · linear_combination -x.w * e03 - x.x * e13 - x.y * e23 - x.z * e33

theorem horn_add (c : List Pair) (p q : Quat) : horn c (p.add q) = (horn c p).add (horn c q) := by
  ext <;> simp only [horn, Quat.add] <;> ring

theorem horn_scale (c : List Pair) (s : ℝ) (q : Quat) : horn c (q.scale s) = (horn c q).scale s := by
  ext <;> simp only [horn, Quat.scale] <;> ring

/-- The rotation of the eigenvector of the largest eigenvalue is the best one. -/
theorem horn_best {c : List Pair} {w : Fin 4 → ℝ} {v : Fin 4 → Quat} {j : Fin 4} (h : IsEigh (horn c) w v j) :
    (hornRotation (v j)).IsRot ∧ ∀ q : M3, q.IsRot → frob q (cov c) ≤ frob (hornRotation (v j)) (cov c) := by
  have hform : ∀ q : Quat, q.dot q = 1 → frob q.matrix (cov c) = q.dot (horn c q) := by
    intro q hq
    have h1 : tfEps ≤ q.dot q := by rw [hq]; unfold tfEps; norm_num
    have hc : ∀ f g : Pair → ℝ, (total c fun p => f p * g p) = total c fun p => g p * f p :=
      fun f g => total_congr fun p _ => mul_comm _ _
    rw [Quat.matrix_eq h1, hq]
    simp only [frob, cov, horn]
    rw [hc (fun p => p.1.x) (fun p => p.2.x), hc (fun p => p.1.y) (fun p => p.2.y),
      hc (fun p => p.1.z) (fun p => p.2.z), hc (fun p => p.1.x) (fun p => p.2.y),
      hc (fun p => p.1.y) (fun p => p.2.z), hc (fun p => p.1.z) (fun p => p.2.x),
      hc (fun p => p.1.x) (fun p => p.2.z), hc (fun p => p.1.y) (fun p => p.2.x),
      hc (fun p => p.1.z) (fun p => p.2.y)]
    generalize (total c fun p => p.2.x * p.1.x) = xx
    generalize (total c fun p => p.2.x * p.1.y) = yx
    generalize (total c fun p => p.2.x * p.1.z) = zx
    generalize (total c fun p => p.2.y * p.1.x) = xy
    generalize (total c fun p => p.2.y * p.1.y) = yy
    generalize (total c fun p => p.2.y * p.1.z) = zy
    generalize (total c fun p => p.2.z * p.1.x) = xz
    generalize (total c fun p => p.2.z * p.1.y) = yz
    generalize (total c fun p => p.2.z * p.1.z) = zz
    simp only [Quat.dot] at hq ⊢
    linear_combination (-xx - yy - zz) * hq
  have hj : (v j).dot (v j) = 1 := by rw [h.orth]; simp
  have hnorm : hornRotation (v j) = (v j).matrix := by
    unfold hornRotation
    rw [Quat.norm, hj, Real.sqrt_one]
    congr 1
    ext <;> simp [Quat.scale]
  refine ⟨c57_matrix_rot _, ?_⟩
  intro q hq
  obtain ⟨x, hx, rfl⟩ := c57_onto q hq
  rw [hnorm, hform x hx, hform _ hj]
  have hv : (v j).dot (horn c (v j)) = w j := by
    rw [h.eig]
    have : (v j).dot ((v j).scale (w j)) = w j * (v j).dot (v j) := by
      simp only [Quat.dot, Quat.scale]; ring
    rw [this, hj, mul_one]
  rw [hv]
  have hx1 := expand h.orth x
  have hN : horn c x = ((((v 0).scale (w 0 * (v 0).dot x)).add ((v 1).scale (w 1 * (v 1).dot x))).add
      ((v 2).scale (w 2 * (v 2).dot x))).add ((v 3).scale (w 3 * (v 3).dot x)) := by
    conv_lhs => rw [hx1]
    simp only [horn_add, horn_scale, h.eig]
    ext <;> simp only [Quat.add, Quat.scale] <;> ring
  have hform' : x.dot (horn c x) = w 0 * (v 0).dot x ^ 2 + w 1 * (v 1).dot x ^ 2 + w 2 * (v 2).dot x ^ 2 +
      w 3 * (v 3).dot x ^ 2 := by
    have e : ∀ i, (v i).dot x = (v i).w * x.w + (v i).x * x.x + (v i).y * x.y + (v i).z * x.z := fun i => rfl
    rw [hN]
    simp only [Quat.dot, Quat.add, Quat.scale]
    ring
  have hcomp : 1 = (v 0).dot x ^ 2 + (v 1).dot x ^ 2 + (v 2).dot x ^ 2 + (v 3).dot x ^ 2 := by
    rw [← hx]
    conv_lhs => rw [hx1]
    generalize hd0 : (v 0).dot x = d0
    generalize hd1 : (v 1).dot x = d1
    generalize hd2 : (v 2).dot x = d2
    generalize hd3 : (v 3).dot x = d3
    have o00 := h.orth 0 0; have o01 := h.orth 0 1; have o02 := h.orth 0 2; have o03 := h.orth 0 3
    have o11 := h.orth 1 1; have o12 := h.orth 1 2; have o13 := h.orth 1 3
    have o22 := h.orth 2 2; have o23 := h.orth 2 3; have o33 := h.orth 3 3
    simp [Quat.dot] at o00 o01 o02 o03 o11 o12 o13 o22 o23 o33
    simp only [Quat.dot, Quat.add, Quat.scale]
    linear_combination d0 ^ 2 * o00 + d1 ^ 2 * o11 + d2 ^ 2 * o22 + d3 ^ 2 * o33 + 2 * d0 * d1 * o01 +
      2 * d0 * d2 * o02 + 2 * d0 * d3 * o03 + 2 * d1 * d2 * o12 + 2 * d1 * d3 * o13 + 2 * d2 * d3 * o23
  rw [hform']
  calc _ ≤ w j * (v 0).dot x ^ 2 + w j * (v 1).dot x ^ 2 + w j * (v 2).dot x ^ 2 + w j * (v 3).dot x ^ 2 := by
        have := fun i => mul_le_mul_of_nonneg_right (h.max i) (sq_nonneg ((v i).dot x))
        linarith [this 0, this 1, this 2, this 3]
    _ = w j := by rw [← mul_add, ← mul_add, ← mul_add, ← hcomp, mul_one]

theorem misfit_zero {l : List Pair} {f : V3 → V3} (h : misfit l f = 0) : ∀ p ∈ l, f p.1 = p.2 := by
  induction l with
  | nil => simp
  | cons p l ih =>
    have h1 : 0 ≤ (f p.1 - p.2).dot (f p.1 - p.2) := dot_self_nonneg _
    have h2 : 0 ≤ misfit l f := total_nonneg fun p => dot_self_nonneg _
    have h3 : (f p.1 - p.2).dot (f p.1 - p.2) + misfit l f = 0 := by
      rw [← h]; unfold misfit; rw [total_cons]
    intro q hq
    rcases List.mem_cons.mp hq with rfl | hq
    · have : f q.1 - q.2 = 0 := dot_self_eq_zero.mp (by linarith)
      have hx := congrArg V3.x this
      have hy := congrArg V3.y this
      have hz := congrArg V3.z this
      simp only [sub_x, sub_y, sub_z, zero_x, zero_y, zero_z] at hx hy hz
      ext <;> linarith
    · exact ih (by linarith) q hq

/-- The rotation was found by one of the two methods. -/
def Found (l : List Pair) (r : M3) : Prop :=
  (∃ u s vh, IsSvd (cov (centred l)) u s vh ∧ r = kabsch u vh) ∨
    ∃ w v j, IsEigh (horn (centred l)) w v j ∧ r = hornRotation (v j)

theorem Found.best {l : List Pair} {r : M3} (h : Found l r) : r.IsRot ∧
    ∀ q : M3, q.IsRot → frob q (cov (centred l)) ≤ frob r (cov (centred l)) := by
  rcases h with ⟨u, s, vh, h, rfl⟩ | ⟨w, v, j, h, rfl⟩
  · exact kabsch_best h
  · exact horn_best h

/-- `superimposition_matrix` with either method. -/
inductive Result (l : List Pair) (scale : Bool) (m : Option H4) : Prop
  | svd (svd : M3 → M3 × V3 × M3) (h : bySvd svd l scale = some m)
      (spec : IsSvd (cov (centred l)) (svd (cov (centred l))).1 (svd (cov (centred l))).2.1
        (svd (cov (centred l))).2.2)
  | quat (eigh : (Quat → Quat) → Quat) (h : byQuat eigh l scale = some m)
      (spec : ∃ w v j, IsEigh (horn (centred l)) w v j ∧ eigh (horn (centred l)) = v j)

theorem Result.found {l : List Pair} {scale : Bool} {m : Option H4} (h : Result l scale m) :
    3 ≤ l.length ∧ ∃ r, Found l r ∧ place l scale r = m := by
  rcases h with ⟨svd, h, spec⟩ | ⟨eigh, h, w, v, j, spec, he⟩
  · simp only [bySvd] at h
    split_ifs at h with hl
    exact ⟨not_lt.mp hl, _, Or.inl ⟨_, _, _, spec, rfl⟩, Option.some.inj h⟩
  · simp only [byQuat] at h
    split_ifs at h with hl
    exact ⟨not_lt.mp hl, _, Or.inr ⟨w, v, j, spec, rfl⟩, by rw [← he]; exact Option.some.inj h⟩

theorem total_zero {l : List Pair} {f : Pair → ℝ} (h : ∀ p, 0 ≤ f p) (h0 : total l f = 0) : ∀ p ∈ l, f p = 0 := by
  induction l with
  | nil => simp
  | cons p l ih =>
    have h1 := h p
    have h2 : 0 ≤ total l f := total_nonneg h
    rw [total_cons] at h0
    intro q hq
    rcases List.mem_cons.mp hq with rfl | hq
    · linarith
    · exact ih (by linarith) q hq

/-- An affine map takes the centroid to the centroid. -/
theorem mean_affine {l : List Pair} (hl0 : l ≠ []) {a : M3} {t : V3} (hl : ∀ p ∈ l, p.2 = a.mulVec p.1 + t) :
    mean l Prod.snd = a.mulVec (mean l Prod.fst) + t := by
  have hlr : (l.length : ℝ) ≠ 0 := by
    have := List.length_pos_iff.mpr hl0
    positivity
  have key : ∀ k : List Pair, (∀ p ∈ k, p.2 = a.mulVec p.1 + t) →
      (total k fun p => p.2.x) = a.a00 * (total k fun p => p.1.x) + a.a01 * (total k fun p => p.1.y) +
        a.a02 * (total k fun p => p.1.z) + k.length * t.x ∧
      (total k fun p => p.2.y) = a.a10 * (total k fun p => p.1.x) + a.a11 * (total k fun p => p.1.y) +
        a.a12 * (total k fun p => p.1.z) + k.length * t.y ∧
      (total k fun p => p.2.z) = a.a20 * (total k fun p => p.1.x) + a.a21 * (total k fun p => p.1.y) +
        a.a22 * (total k fun p => p.1.z) + k.length * t.z := by
    intro k
    induction k with
    | nil => intro _; simp [total_nil]
    | cons p k ih =>
      intro hk
      obtain ⟨i1, i2, i3⟩ := ih fun p' hp' => hk p' (List.mem_cons_of_mem _ hp')
      have hp' := hk p List.mem_cons_self
      simp only [total_cons, List.length_cons, i1, i2, i3]
      rw [hp']
      simp only [M3.mulVec, add_x, add_y, add_z]
      push_cast
      refine ⟨?_, ?_, ?_⟩ <;> ring
  obtain ⟨k1, k2, k3⟩ := key l hl
  ext <;> simp only [mean, M3.mulVec, add_x, add_y, add_z, k1, k2, k3] <;> field_simp

/-- There is no ratio of sizes exactly if the points are all the same. -/
theorem ratio_none {l : List Pair} (hl : l ≠ []) :
    ratio (centred l) = none ↔ ∀ p ∈ l, ∀ p' ∈ l, p.1 = p'.1 := by
  have e : ratio (centred l) = none ↔ (total (centred l) fun p => p.1.dot p.1) = 0 := by
    simp only [ratio]; split_ifs with h <;> simp [h]
  rw [e]
  simp only [centred, total_map]
  constructor
  · intro h
    have h' := total_zero (f := fun p => (p.1 + -mean l Prod.fst).dot (p.1 + -mean l Prod.fst))
      (fun p => dot_self_nonneg _) h
    have : ∀ p ∈ l, p.1 = mean l Prod.fst := by
      intro p hp
      have h0 := dot_self_eq_zero.mp (h' p hp)
      have hx := congrArg V3.x h0
      have hy := congrArg V3.y h0
      have hz := congrArg V3.z h0
      simp only [add_x, add_y, add_z, neg_x, neg_y, neg_z, zero_x, zero_y, zero_z] at hx hy hz
      ext <;> linarith
    intro p hp p' hp'
    rw [this p hp, this p' hp']
  · intro h
    obtain ⟨p0, hp0⟩ := List.exists_mem_of_ne_nil l hl
    have hlr : (l.length : ℝ) ≠ 0 := by
      have := List.length_pos_iff.mpr hl
      positivity
    have hc : ∀ c : ℝ, (total l fun _ => c) = l.length * c := by
      intro c
      have := total_add_const l (fun _ => 0) c
      simp only [zero_add] at this
      rw [this]
      simp [total]
    have hm : mean l Prod.fst = p0.1 := by
      unfold mean
      rw [total_congr (f := fun p : Pair => p.1.x) (g := fun _ => p0.1.x) fun p hp => by rw [h p hp p0 hp0],
        total_congr (f := fun p : Pair => p.1.y) (g := fun _ => p0.1.y) fun p hp => by rw [h p hp p0 hp0],
        total_congr (f := fun p : Pair => p.1.z) (g := fun _ => p0.1.z) fun p hp => by rw [h p hp p0 hp0],
        hc, hc, hc]
      ext <;> simp only [] <;> field_simp
    rw [hm, total_congr (g := fun _ => 0), hc, mul_zero]
    intro p hp
    rw [h p hp p0 hp0]
    simp [dot]

theorem place_none {l : List Pair} (hl : l ≠ []) (scale : Bool) (r : M3) :
    place l scale r = none ↔ scale = true ∧ ∀ p ∈ l, ∀ p' ∈ l, p.1 = p'.1 := by
  rw [← ratio_none hl]
  simp only [place, Option.map_eq_none_iff]
  cases scale <;> simp

end Super

/-- C97: without scaling the matrix is a rigid motion, and no rigid motion has a smaller sum of squared distances
between the images and the targets; by both methods, for all points. -/
theorem c97_rigid (l : List Pair) (m : H4) (h : Result l false (some m)) :
    m.a.IsRot ∧ m.c = 0 ∧ m.d = 1 ∧ ∀ (q : M3) (t : V3), q.IsRot →
      misfit l (fun x => point (m.app (x, 1))) ≤ misfit l fun x => q.mulVec x + t := by
  obtain ⟨hl, r, hf, hp⟩ := h.found
  have hl0 : l ≠ [] := by rintro rfl; simp at hl
  obtain ⟨hr, hbest⟩ := hf.best
  obtain ⟨f, -, -, -, -, hc, hd⟩ := place_some hp
  obtain ⟨f, -, hf1, -, ha, -, hmin⟩ := best hl0 hr hbest hp
  obtain rfl := hf1 rfl
  have h1 : ∀ q : M3, smul3 1 q = q := by intro q; ext <;> simp [smul3]
  rw [h1] at ha
  refine ⟨ha ▸ hr, hc, hd, fun q t hq => ?_⟩
  have := hmin q t hq
  rwa [h1] at this

/-- C97: with scaling the matrix is a rotation times the ratio of the sizes (root mean square distance from the
centroid) of the two sets: it takes centroid to centroid and the first set to one of the size of the second, and no
other motion with this factor has a smaller sum of squared distances. -/
theorem c97_similarity (l : List Pair) (m : H4) (h : Result l true (some m)) :
    ∃ (f : ℝ) (r : M3), 0 ≤ f ∧ r.IsRot ∧ m.a = smul3 f r ∧ m.c = 0 ∧ m.d = 1 ∧
      point (m.app (mean l Prod.fst, 1)) = mean l Prod.snd ∧
      (total l fun p => (point (m.app (p.1, 1)) - mean l Prod.snd).dot
          (point (m.app (p.1, 1)) - mean l Prod.snd)) =
        (total l fun p => (p.2 - mean l Prod.snd).dot (p.2 - mean l Prod.snd)) ∧
      ∀ (q : M3) (t : V3), q.IsRot →
        misfit l (fun x => point (m.app (x, 1))) ≤ misfit l fun x => (smul3 f q).mulVec x + t := by
  obtain ⟨hl, r, hfd, hp⟩ := h.found
  have hl0 : l ≠ [] := by rintro rfl; simp at hl
  obtain ⟨hr, hbest⟩ := hfd.best
  obtain ⟨f', -, -, ha', hb', hc, hd⟩ := place_some hp
  obtain ⟨f, hf, -, hra, ha, hcen, hmin⟩ := best hl0 hr hbest hp
  refine ⟨f, r, hf, hr, ha, hc, hd, hcen, ?_, hmin⟩
  have hra := hra rfl
  simp only [ratio] at hra
  split_ifs at hra with h0
  have hra := Option.some.inj hra
  have hs0 : 0 ≤ total (centred l) fun p => p.1.dot p.1 := total_nonneg fun p => dot_self_nonneg _
  have hs1 : 0 ≤ total (centred l) fun p => p.2.dot p.2 := total_nonneg fun p => dot_self_nonneg _
  have hsq : f ^ 2 * (total (centred l) fun p => p.1.dot p.1) = total (centred l) fun p => p.2.dot p.2 := by
    rw [← hra, Real.sq_sqrt (div_nonneg hs1 hs0)]
    field_simp
  have e2 : (total l fun p => (p.2 - mean l Prod.snd).dot (p.2 - mean l Prod.snd)) =
      total (centred l) fun p => p.2.dot p.2 := by
    simp only [centred, total_map]
    apply total_congr
    intro p _
    simp only [dot, sub_x, sub_y, sub_z, add_x, add_y, add_z, neg_x, neg_y, neg_z]; ring
  rw [e2, ← hsq]
  have e1 : ∀ x, point (m.app (x, 1)) - mean l Prod.snd = f • r.mulVec (x - mean l Prod.fst) := by
    intro x
    have e3 := point_affine hc hd (mean l Prod.fst)
    rw [hcen] at e3
    rw [point_affine hc hd]
    conv_lhs => rw [e3]
    rw [ha]
    ext <;> simp [M3.mulVec, smul3] <;> ring
  have hn : ∀ x : V3, (f • r.mulVec x).dot (f • r.mulVec x) = f ^ 2 * x.dot x := by
    intro x
    have h := hr.right
    simp only [M3.mul, M3.T, M3.one, M3.mk.injEq] at h
    obtain ⟨h00, h01, h02, h10, h11, h12, h20, h21, h22⟩ := h
    simp only [M3.mulVec, dot, smul_x, smul_y, smul_z]
    linear_combination f ^ 2 * (x.x * x.x * h00 + 2 * x.x * x.y * h01 + 2 * x.x * x.z * h02
      + x.y * x.y * h11 + 2 * x.y * x.z * h12 + x.z * x.z * h22)
  have e4 : (f ^ 2 * total (centred l) fun p => p.1.dot p.1) = total (centred l) fun p => f ^ 2 * p.1.dot p.1 := by
    generalize centred l = c
    induction c with
    | nil => simp [total_nil]
    | cons p c ih => rw [total_cons, total_cons, mul_add, ih]
  rw [e4]
  simp only [centred, total_map, e1, hn]
  apply total_congr
  intro p _
  simp only [dot, sub_x, sub_y, sub_z, add_x, add_y, add_z, neg_x, neg_y, neg_z]; ring

/-- C97: targets that are the image of the points under a motion (with scaling: a similarity) are met exactly. -/
theorem c97_exact (l : List Pair) (scale : Bool) (m : H4) (h : Result l scale (some m)) (f : ℝ) (q : M3) (t : V3)
    (hf : 0 < f) (hs : scale = false → f = 1) (hq : q.IsRot)
    (hl : ∀ p ∈ l, p.2 = (smul3 f q).mulVec p.1 + t) :
    ∀ p ∈ l, point (m.app (p.1, 1)) = p.2 := by
  have hz : misfit l (fun x => (smul3 f q).mulVec x + t) = 0 := by
    unfold misfit
    rw [total_congr (g := fun _ => 0)]
    · clear h hl
      induction l with
      | nil => rfl
      | cons p l ih => rw [total_cons, ih]; ring
    · intro p hp
      rw [hl p hp]
      simp [dot]
  have hle : misfit l (fun x => point (m.app (x, 1))) ≤ 0 := by
    cases scale
    · obtain ⟨-, -, -, hmin⟩ := c97_rigid l m h
      have := hmin q t hq
      rw [hs rfl] at hz
      have h1 : smul3 1 q = q := by ext <;> simp [smul3]
      rw [h1] at hz
      linarith
    · obtain ⟨hlen, r, hfd, hp⟩ := h.found
      have hl0 : l ≠ [] := by rintro rfl; simp at hlen
      obtain ⟨hr, hbest⟩ := hfd.best
      obtain ⟨g, hg, -, hra, ha, hcen, hmin⟩ := best hl0 hr hbest hp
      have hra := hra rfl
      simp only [ratio] at hra
      split_ifs at hra with h0
      have hra := Option.some.inj hra
      have hmean := mean_affine hl0 hl
      have hsize : (total (centred l) fun p => p.2.dot p.2) = f ^ 2 * total (centred l) fun p => p.1.dot p.1 := by
        have hn : ∀ x : V3, ((smul3 f q).mulVec x).dot ((smul3 f q).mulVec x) = f ^ 2 * x.dot x := by
          intro x
          have h := hq.right
          simp only [M3.mul, M3.T, M3.one, M3.mk.injEq] at h
          obtain ⟨h00, h01, h02, h10, h11, h12, h20, h21, h22⟩ := h
          simp only [M3.mulVec, dot, smul3]
          linear_combination f ^ 2 * (x.x * x.x * h00 + 2 * x.x * x.y * h01 + 2 * x.x * x.z * h02
            + x.y * x.y * h11 + 2 * x.y * x.z * h12 + x.z * x.z * h22)
        have e4 : (f ^ 2 * total (centred l) fun p => p.1.dot p.1) =
            total (centred l) fun p => f ^ 2 * p.1.dot p.1 := by
          generalize centred l = c
          induction c with
          | nil => simp [total_nil]
          | cons p c ih => rw [total_cons, total_cons, mul_add, ih]
        rw [e4]
        apply total_congr
        intro p hp
        simp only [centred, List.mem_map] at hp
        obtain ⟨p0, hp0, rfl⟩ := hp
        dsimp only
        rw [← hn, hl p0 hp0, hmean]
        have : (smul3 f q).mulVec p0.1 + t + -((smul3 f q).mulVec (mean l Prod.fst) + t) =
            (smul3 f q).mulVec (p0.1 + -mean l Prod.fst) := by
          ext <;> simp [M3.mulVec] <;> ring
        rw [this]
      have hgf : g = f := by
        rw [← hra, hsize, mul_div_assoc, div_self h0, mul_one, Real.sqrt_sq hf.le]
      have := hmin q t hq
      rw [hgf, hz] at this
      exact this
  have hge : 0 ≤ misfit l (fun x => point (m.app (x, 1))) := total_nonneg fun p => dot_self_nonneg _
  exact misfit_zero (le_antisymm hle hge)

/-- C97: less than three points are refused; the result is NaN exactly with scaling and points that are all the
same. -/
theorem c97_raises (svd : M3 → M3 × V3 × M3) (eigh : (Quat → Quat) → Quat) (l : List Pair) (scale : Bool) :
    (bySvd svd l scale = none ↔ l.length < 3) ∧ (byQuat eigh l scale = none ↔ l.length < 3) ∧
    (3 ≤ l.length → (bySvd svd l scale = some none ↔ scale = true ∧ ∀ p ∈ l, ∀ p' ∈ l, p.1 = p'.1) ∧
      (byQuat eigh l scale = some none ↔ scale = true ∧ ∀ p ∈ l, ∀ p' ∈ l, p.1 = p'.1)) := by
  have hl0 : 3 ≤ l.length → l ≠ [] := by rintro h rfl; simp at h
  refine ⟨?_, ?_, fun h => ⟨?_, ?_⟩⟩
  · simp only [bySvd]; split_ifs with h <;> simp [h]
  · simp only [byQuat]; split_ifs with h <;> simp [h]
  · simp only [bySvd]
    rw [if_neg (not_lt.mpr h), Option.some.injEq, place_none (hl0 h)]
  · simp only [byQuat]
    rw [if_neg (not_lt.mpr h), Option.some.injEq, place_none (hl0 h)]

namespace Super

/-- The corners of an octahedron, to be stretched along `x`. -/
def octahedron : List Pair := [(⟨1, 0, 0⟩, ⟨2, 0, 0⟩), (⟨-1, 0, 0⟩, ⟨-2, 0, 0⟩), (⟨0, 1, 0⟩, ⟨0, 1, 0⟩),
  (⟨0, -1, 0⟩, ⟨0, -1, 0⟩), (⟨0, 0, 1⟩, ⟨0, 0, 1⟩), (⟨0, 0, -1⟩, ⟨0, 0, -1⟩)]

theorem octahedron_centred : centred octahedron = octahedron := by
  have h0 : mean octahedron Prod.fst = 0 := by ext <;> simp [mean, total, octahedron]
  have h1 : mean octahedron Prod.snd = 0 := by ext <;> simp [mean, total, octahedron]
  have : ∀ v : V3, v + -0 = v := by intro v; ext <;> simp
  simp [centred, h0, h1, this]

theorem octahedron_svd : IsSvd (cov (centred octahedron)) M3.one ⟨4, 2, 2⟩ M3.one := by
  rw [octahedron_centred]
  refine ⟨⟨?_, ?_⟩, ⟨?_, ?_⟩, ?_, ?_, ?_, ?_⟩
  · ext <;> simp [M3.mul, M3.T, M3.one]
  · ext <;> simp [M3.mul, M3.T, M3.one]
  · ext <;> simp [M3.mul, M3.T, M3.one]
  · ext <;> simp [M3.mul, M3.T, M3.one]
  · ext <;> simp [M3.mul, M3.one, cov, total, octahedron] <;> norm_num
  · norm_num
  · norm_num
  · norm_num

end Super

/-- C97, violation: contrary to what the documentation says the similarity does not minimise the sum of squared
distances: here the factor is `√2` and `4/3` would be better. -/
theorem c97_scale_violation : ∃ (l : List Pair) (m : H4), Result l true (some m) ∧
    ∃ f : ℝ, 0 < f ∧ misfit l (fun x => (smul3 f M3.one).mulVec x) <
      misfit l (fun x => point (m.app (x, 1))) := by
  obtain ⟨m, hm⟩ : ∃ m, place octahedron true (kabsch M3.one M3.one) = some m := by
    rcases h : place octahedron true (kabsch M3.one M3.one) with - | m
    · have := ((place_none (by simp [octahedron]) _ _).mp h).2 (⟨1, 0, 0⟩, ⟨2, 0, 0⟩) (by simp [octahedron])
        (⟨-1, 0, 0⟩, ⟨-2, 0, 0⟩) (by simp [octahedron])
      simp only [V3.mk.injEq] at this
      norm_num at this
    · exact ⟨m, rfl⟩
  have hres : Result octahedron true (some m) := by
    refine .svd (fun _ => (M3.one, ⟨4, 2, 2⟩, M3.one)) ?_ octahedron_svd
    simp only [bySvd]
    rw [if_neg (by simp [octahedron]), hm]
  refine ⟨octahedron, m, hres, 4 / 3, by norm_num, ?_⟩
  obtain ⟨f, -, hra, ha, hb, hc, hd⟩ := place_some hm
  have hk : kabsch M3.one M3.one = M3.one := by
    unfold kabsch
    have h1 : M3.one.mul M3.one = M3.one := M3.one_mul _
    simp only [h1]
    rw [if_neg (by simp [M3.det, M3.one])]
  have h0 : mean octahedron Prod.fst = 0 := by ext <;> simp [mean, total, octahedron]
  have h1 : mean octahedron Prod.snd = 0 := by ext <;> simp [mean, total, octahedron]
  have hf : f = Real.sqrt 2 := by
    have := hra rfl
    rw [octahedron_centred] at this
    simp only [ratio, octahedron, total, dot] at this
    norm_num at this
    exact this.symm
  have e : (fun x => point (m.app (x, 1))) = fun x => (smul3 (Real.sqrt 2) M3.one).mulVec x := by
    funext x
    rw [point_affine hc hd, ha, hb, hk, h0, h1, hf]
    ext <;> simp [M3.mulVec]
  rw [e]
  have h2 : Real.sqrt 2 ^ 2 = 2 := Real.sq_sqrt (by norm_num)
  have h3 : Real.sqrt 2 < 17 / 12 := by
    rw [Real.sqrt_lt' (by norm_num)]; norm_num
  simp only [misfit, total, octahedron, List.map_cons, List.map_nil, List.sum_cons, List.sum_nil, M3.mulVec, smul3,
    M3.one, dot, sub_x, sub_y, sub_z]
  nlinarith

/-- The hypotheses of the theorems by the singular value decomposition: the stretched octahedron, without and with
scaling. -/
example (scale : Bool) : ∃ m, Result octahedron scale m := by
  refine ⟨place octahedron scale (kabsch M3.one M3.one), .svd (fun _ => (M3.one, ⟨4, 2, 2⟩, M3.one)) ?_
    octahedron_svd⟩
  simp only [bySvd]
  rw [if_neg (by simp [octahedron])]

/-- The hypotheses of the theorems by the eigenvector: the eigenvalues are `8`, `0`, `-4` and `-4`. -/
example (scale : Bool) : ∃ m, Result octahedron scale m := by
  refine ⟨place octahedron scale (hornRotation ⟨1, 0, 0, 0⟩), .quat (fun _ => ⟨1, 0, 0, 0⟩) ?_
    ⟨![8, 0, -4, -4], ![⟨1, 0, 0, 0⟩, ⟨0, 1, 0, 0⟩, ⟨0, 0, 1, 0⟩, ⟨0, 0, 0, 1⟩], 0, ?_, rfl⟩⟩
  · simp only [byQuat]
    rw [if_neg (by simp [octahedron])]
  · rw [octahedron_centred]
    refine ⟨?_, ?_, ?_⟩
    · intro i
      fin_cases i <;> ext <;> simp [horn, Quat.scale, total, octahedron] <;> norm_num
    · intro i k
      fin_cases i <;> fin_cases k <;> simp [Quat.dot]
    · intro i
      fin_cases i <;> simp <;> norm_num

/-- Targets that are a similarity away: the hypothesis of `c97_exact`. -/
example : ∃ l : List Pair, 3 ≤ l.length ∧
    ∀ p ∈ l, p.2 = (smul3 2 (⟨0, -1, 0, 1, 0, 0, 0, 0, 1⟩ : M3)).mulVec p.1 + ⟨1, 2, 3⟩ := by
  refine ⟨[(⟨1, 0, 0⟩, ⟨1, 4, 3⟩), (⟨0, 1, 0⟩, ⟨-1, 2, 3⟩), (⟨0, 0, 0⟩, ⟨1, 2, 3⟩)], by simp, ?_⟩
  intro p hp
  simp only [List.mem_cons, List.not_mem_nil, or_false] at hp
  rcases hp with rfl | rfl | rfl <;> ext <;> simp [M3.mulVec, smul3] <;> norm_num

end RayOpt
