import Verif.Props.Superimpose
import Verif.Props.Decompose

/-!
C97: fitting an affine map to two sets of points (rayopt/transformations.py 887-1000).
-/

namespace RayOpt

open V3 H4 Super

namespace Super

/-- The six coordinates of a pair. -/
def comp (p : Pair) : Fin 6 → ℝ := ![p.1.x, p.1.y, p.1.z, p.2.x, p.2.y, p.2.z]

/-- The scalar product of pairs as vectors with six coordinates. -/
def inner6 (p q : Pair) : ℝ := p.1.dot q.1 + p.2.dot q.2

/-- The contract of `numpy.linalg.svd` for the right singular vectors of the matrix whose rows are the pairs: they are
of length one at right angles, they are the eigenvectors of the Gram matrix, and the singular values decrease. -/
structure IsRightSvd (c : List Pair) (w : Fin 6 → Pair) (s : Fin 6 → ℝ) : Prop where
  orth : ∀ i k, inner6 (w i) (w k) = if i = k then 1 else 0
  gram : ∀ i k, (total c fun p => inner6 p (w i) * comp p k) = s i ^ 2 * comp (w i) k
  anti : ∀ i k, i ≤ k → s k ≤ s i
  nonneg : ∀ i, 0 ≤ s i

/-- The contract of `numpy.linalg.pinv`: the conditions of Penrose. -/
structure IsPinv (b x : M3) : Prop where
  bxb : (b.mul x).mul b = b
  xbx : (x.mul b).mul x = x
  left : (b.mul x).T = b.mul x
  right : (x.mul b).T = x.mul b

theorem inner6_sum (p q : Pair) : inner6 p q = ∑ k, comp p k * comp q k := by
  rw [Fin.sum_univ_six]
  simp [inner6, comp, dot]
  ring

/-- Six vectors of length one at right angles are a basis. -/
theorem expand6 {w : Fin 6 → Pair} (h : ∀ i k, inner6 (w i) (w k) = if i = k then 1 else 0) (x : Pair) (k : Fin 6) :
    comp x k = ∑ i, inner6 (w i) x * comp (w i) k := by
  let V : Matrix (Fin 6) (Fin 6) ℝ := fun i k => comp (w i) k
  have h1 : V * V.transpose = 1 := by
    ext i k
    rw [Matrix.mul_apply, Matrix.one_apply, ← h i k, inner6_sum]
    rfl
  have h2 : V.transpose * V = 1 := mul_eq_one_comm.mp h1
  have h3 : (V.transpose * V).mulVec (comp x) k = comp x k := by rw [h2, Matrix.one_mulVec]
  rw [← h3, ← Matrix.mulVec_mulVec]
  simp only [Matrix.mulVec, dotProduct, Matrix.transpose_apply]
  apply Finset.sum_congr rfl
  intro i _
  rw [inner6_sum, mul_comm]

theorem total_sum (c : List Pair) (f : Fin 6 → Pair → ℝ) :
    (total c fun p => ∑ k, f k p) = ∑ k, total c (f k) := by
  induction c with
  | nil => simp [total_nil]
  | cons p c ih => simp only [total_cons, ih, Finset.sum_add_distrib]

theorem total_mul (c : List Pair) (f : Pair → ℝ) (a : ℝ) : (total c fun p => a * f p) = a * total c f := by
  induction c with
  | nil => simp [total_nil]
  | cons p c ih => rw [total_cons, total_cons, ih, mul_add]

theorem total_lin (c : List Pair) (f : Pair → ℝ) (a b d : ℝ) :
    (total c fun p => f p * (a * p.1.x + b * p.1.y + d * p.1.z)) =
      a * (total c fun p => f p * p.1.x) + b * (total c fun p => f p * p.1.y) +
        d * total c fun p => f p * p.1.z := by
  induction c with
  | nil => simp [total_nil]
  | cons p c ih => simp only [total_cons, ih]; ring

/-- The pairs are at right angles to the singular vectors of the singular value zero. -/
theorem IsRightSvd.null {c : List Pair} {w : Fin 6 → Pair} {s : Fin 6 → ℝ} (h : IsRightSvd c w s) {i : Fin 6}
    (hi : s i = 0) : ∀ p ∈ c, inner6 (w i) p = 0 := by
  have h1 : (total c fun p => inner6 p (w i) ^ 2) = 0 := by
    have e : ∀ p, inner6 p (w i) ^ 2 = ∑ k, comp (w i) k * (inner6 p (w i) * comp p k) := by
      intro p
      rw [pow_two]
      nth_rw 2 [inner6_sum]
      rw [Finset.mul_sum]
      exact Finset.sum_congr rfl fun k _ => by ring
    simp only [e]
    rw [total_sum]
    apply Finset.sum_eq_zero
    intro k _
    rw [total_mul, h.gram, hi]
    ring
  intro p hp
  have := total_zero (fun p => sq_nonneg _) h1 p hp
  have : inner6 p (w i) = 0 := by simpa using this
  rw [← this]
  simp only [inner6, dot]; ring

/-- Points that are not in a plane have three singular values. -/
theorem IsRightSvd.pos {c : List Pair} {w : Fin 6 → Pair} {s : Fin 6 → ℝ} (h : IsRightSvd c w s)
    (hspan : ∀ n : V3, (∀ p ∈ c, n.dot p.1 = 0) → n = 0) : 0 < s 2 := by
  by_contra h2
  have h2 : s 2 = 0 := le_antisymm (not_lt.mp h2) (h.nonneg 2)
  have h0 : ∀ i, 2 ≤ i → s i = 0 := fun i hi => le_antisymm (h2 ▸ h.anti 2 i hi) (h.nonneg i)
  have hdet : (!![(w 0).1.x, (w 0).1.y, (w 0).1.z; (w 1).1.x, (w 1).1.y, (w 1).1.z; 0, 0, 0] :
      Matrix (Fin 3) (Fin 3) ℝ).det = 0 := by
    rw [Matrix.det_fin_three]; simp
  obtain ⟨v, hv, hv0⟩ := Matrix.exists_mulVec_eq_zero_iff.mpr hdet
  have e0 := congrFun hv0 0
  have e1 := congrFun hv0 1
  simp [Matrix.mulVec, dotProduct, Fin.sum_univ_three] at e0 e1
  have hn := hspan ⟨v 0, v 1, v 2⟩ (by
    intro p hp
    have hz : ∀ i, 2 ≤ i → inner6 (w i) p = 0 := fun i hi => h.null (h0 i hi) p hp
    have hx := expand6 h.orth p 0
    have hy := expand6 h.orth p 1
    have hz' := expand6 h.orth p 2
    rw [Fin.sum_univ_six, hz 2 (by decide), hz 3 (by decide), hz 4 (by decide), hz 5 (by decide)] at hx hy hz'
    simp [comp] at hx hy hz'
    simp only [dot]
    rw [hx, hy, hz']
    linear_combination inner6 (w 0) p * e0 + inner6 (w 1) p * e1)
  apply hv
  simp only [V3.ext_iff, zero_x, zero_y, zero_z] at hn
  obtain ⟨n0, n1, n2⟩ := hn
  funext i
  fin_cases i
  · exact n0
  · exact n1
  · exact n2

theorem vecMul_mul (v : V3) (a b : M3) : M3.vecMul v (a.mul b) = M3.vecMul (M3.vecMul v a) b := by
  ext <;> simp only [M3.vecMul, M3.mul] <;> ring

/-- The pseudoinverse of a regular matrix is its inverse. -/
theorem IsPinv.inverse {b x : M3} (h : IsPinv b x) (hb : b.det ≠ 0) : b.mul x = M3.one := by
  have key : ∀ v, M3.vecMul v (b.mul x) = v := by
    intro v
    have := congrArg (fun m => M3.vecMul (M3.vecMul v m) (inv3 b)) h.bxb
    simp only [vecMul_mul v _ b, vecMul_inv' hb] at this
    exact this
  have kx := key ⟨1, 0, 0⟩
  have ky := key ⟨0, 1, 0⟩
  have kz := key ⟨0, 0, 1⟩
  generalize b.mul x = m at *
  simp only [M3.vecMul, V3.ext_iff] at kx ky kz
  ext <;> simp only [M3.one] <;> linarith

end Super

/-- C97: the affine map is found exactly if the targets are the image of the points under it and the points are not
all in one plane. -/
theorem c97_affine (svd : List Pair → Fin 6 → Pair) (pinv : M3 → M3) (l : List Pair) (m : H4)
    (h : byAffine svd pinv l = some (some m)) (s : Fin 6 → ℝ) (hsvd : IsRightSvd (centred l) (svd (centred l)) s)
    (hpinv : ∀ b : M3, b.det ≠ 0 → IsPinv b (pinv b)) (a : M3) (t : V3) (hl : ∀ p ∈ l, p.2 = a.mulVec p.1 + t)
    (hspan : ∀ (n : V3) (d : ℝ), (∀ p ∈ l, n.dot p.1 = d) → n = 0) :
    m = ⟨a, t, 0, 1⟩ := by
  simp only [byAffine] at h
  split_ifs at h with hlen
  have h := Option.some.inj h
  have hl0 : l ≠ [] := by rintro rfl; simp at hlen
  have hmean := mean_affine hl0 hl
  have hc : ∀ p ∈ centred l, p.2 = a.mulVec p.1 := by
    intro p hp
    simp only [centred, List.mem_map] at hp
    obtain ⟨p0, hp0, rfl⟩ := hp
    dsimp only
    rw [hl p0 hp0, hmean]
    ext <;> simp [M3.mulVec] <;> ring
  have hs : ∀ n : V3, (∀ p ∈ centred l, n.dot p.1 = 0) → n = 0 := by
    intro n hn
    apply hspan n (n.dot (mean l Prod.fst))
    intro p hp
    have := hn (p.1 + -mean l Prod.fst, p.2 + -mean l Prod.snd)
      (by simp only [centred, List.mem_map]; exact ⟨p, hp, rfl⟩)
    simp only [dot, add_x, add_y, add_z, neg_x, neg_y, neg_z] at this ⊢
    linarith
  generalize svd (centred l) = w at *
  have hpos := hsvd.pos hs
  have hgraph : ∀ i, i ≤ 2 → (w i).2 = a.mulVec (w i).1 := by
    intro i hi
    have hsi : s i ^ 2 ≠ 0 := by
      have := hsvd.anti i 2 hi
      have : 0 < s i := by linarith
      positivity
    have g0 := hsvd.gram i 0
    have g1 := hsvd.gram i 1
    have g2 := hsvd.gram i 2
    have g3 := hsvd.gram i 3
    have g4 := hsvd.gram i 4
    have g5 := hsvd.gram i 5
    simp [comp] at g0 g1 g2 g3 g4 g5
    rw [total_congr (g := fun p => inner6 p (w i) * (a.a00 * p.1.x + a.a01 * p.1.y + a.a02 * p.1.z))
      (fun p hp => by rw [hc p hp]; simp [M3.mulVec]), total_lin, g0, g1, g2] at g3
    rw [total_congr (g := fun p => inner6 p (w i) * (a.a10 * p.1.x + a.a11 * p.1.y + a.a12 * p.1.z))
      (fun p hp => by rw [hc p hp]; simp [M3.mulVec]), total_lin, g0, g1, g2] at g4
    rw [total_congr (g := fun p => inner6 p (w i) * (a.a20 * p.1.x + a.a21 * p.1.y + a.a22 * p.1.z))
      (fun p hp => by rw [hc p hp]; simp [M3.mulVec]), total_lin, g0, g1, g2] at g5
    ext <;> simp only [M3.mulVec] <;> apply mul_left_cancel₀ hsi
    · linear_combination -g3
    · linear_combination -g4
    · linear_combination -g5
  have w0 := hgraph 0 (by decide)
  have w1 := hgraph 1 (by decide)
  have w2 := hgraph 2 (by decide)
  have hblock : shearBlock pinv w = a := by
    unfold shearBlock
    obtain ⟨b, hb⟩ : ∃ b : M3, (⟨(w 0).1.x, (w 1).1.x, (w 2).1.x, (w 0).1.y, (w 1).1.y, (w 2).1.y, (w 0).1.z,
      (w 1).1.z, (w 2).1.z⟩ : M3) = b := ⟨_, rfl⟩
    have hC : (⟨(w 0).2.x, (w 1).2.x, (w 2).2.x, (w 0).2.y, (w 1).2.y, (w 2).2.y, (w 0).2.z, (w 1).2.z,
        (w 2).2.z⟩ : M3) = a.mul b := by
      rw [w0, w1, w2, ← hb]
      ext <;> simp only [M3.mul, M3.mulVec]
    simp only [hb, hC]
    have hdet : b.det ≠ 0 := by
      intro hd
      have hdet : (!![b.a00, b.a01, b.a02; b.a10, b.a11, b.a12; b.a20, b.a21, b.a22] :
          Matrix (Fin 3) (Fin 3) ℝ).det = 0 := by
        rw [Matrix.det_fin_three, ← hd]; simp [M3.det]; ring
      obtain ⟨v, hv, hv0⟩ := Matrix.exists_mulVec_eq_zero_iff.mpr hdet
      have e0 := congrFun hv0 0
      have e1 := congrFun hv0 1
      have e2 := congrFun hv0 2
      simp [Matrix.mulVec, dotProduct, Fin.sum_univ_three, ← hb] at e0 e1 e2
      have f0 : (w 0).2.x * v 0 + (w 1).2.x * v 1 + (w 2).2.x * v 2 = 0 := by
        rw [w0, w1, w2]; simp only [M3.mulVec]
        linear_combination a.a00 * e0 + a.a01 * e1 + a.a02 * e2
      have f1 : (w 0).2.y * v 0 + (w 1).2.y * v 1 + (w 2).2.y * v 2 = 0 := by
        rw [w0, w1, w2]; simp only [M3.mulVec]
        linear_combination a.a10 * e0 + a.a11 * e1 + a.a12 * e2
      have f2 : (w 0).2.z * v 0 + (w 1).2.z * v 1 + (w 2).2.z * v 2 = 0 := by
        rw [w0, w1, w2]; simp only [M3.mulVec]
        linear_combination a.a20 * e0 + a.a21 * e1 + a.a22 * e2
      have key : ∀ j, inner6 (w j) (w 0) * v 0 + inner6 (w j) (w 1) * v 1 + inner6 (w j) (w 2) * v 2 = 0 := by
        intro j
        simp only [inner6, dot]
        linear_combination (w j).1.x * e0 + (w j).1.y * e1 + (w j).1.z * e2 + (w j).2.x * f0 + (w j).2.y * f1 +
          (w j).2.z * f2
      apply hv
      have k0 := key 0
      have k1 := key 1
      have k2 := key 2
      rw [hsvd.orth, hsvd.orth, hsvd.orth] at k0 k1 k2
      rw [if_pos rfl, if_neg (by decide), if_neg (by decide)] at k0
      rw [if_neg (by decide), if_pos rfl, if_neg (by decide)] at k1
      rw [if_neg (by decide), if_neg (by decide), if_pos rfl] at k2
      simp only [one_mul, zero_mul, add_zero, zero_add] at k0 k1 k2
      funext i
      fin_cases i
      · exact k0
      · exact k1
      · exact k2
    rw [M3.mul_assoc, (hpinv b hdet).inverse hdet]
    ext <;> simp [M3.mul, M3.one]
  rw [hblock] at h
  obtain ⟨f, hf, -, ha, hb, hc', hd⟩ := place_some h
  obtain rfl := hf rfl
  have h1 : smul3 1 a = a := by ext <;> simp [smul3]
  rw [h1] at ha hb
  rw [hmean] at hb
  have hb' : m.b = t := by rw [hb]; ext <;> simp
  obtain ⟨ma, mb, mc, md⟩ := m
  simp only at ha hb' hc' hd
  rw [ha, hb', hc', hd]

/-- The hypotheses of `c97_affine`: an octahedron stretched along `x`. -/
example : ∃ (svd : List Pair → Fin 6 → Pair) (s : Fin 6 → ℝ),
    IsRightSvd (centred octahedron) (svd (centred octahedron)) s ∧
    (∀ b : M3, b.det ≠ 0 → IsPinv b (inv3 b)) ∧
    (∀ p ∈ octahedron, p.2 = (⟨2, 0, 0, 0, 1, 0, 0, 0, 1⟩ : M3).mulVec p.1 + 0) ∧
    ∀ (n : V3) (d : ℝ), (∀ p ∈ octahedron, n.dot p.1 = d) → n = 0 := by
  obtain ⟨r, hr⟩ : ∃ r : ℝ, r * r = 1 / 2 := ⟨Real.sqrt (1 / 2), Real.mul_self_sqrt (by norm_num)⟩
  obtain ⟨q, hq⟩ : ∃ q : ℝ, q * q = 1 / 5 := ⟨Real.sqrt (1 / 5), Real.mul_self_sqrt (by norm_num)⟩
  refine ⟨fun _ => ![(⟨q, 0, 0⟩, ⟨2 * q, 0, 0⟩), (⟨0, r, 0⟩, ⟨0, r, 0⟩), (⟨0, 0, r⟩, ⟨0, 0, r⟩),
    (⟨2 * q, 0, 0⟩, ⟨-q, 0, 0⟩), (⟨0, r, 0⟩, ⟨0, -r, 0⟩), (⟨0, 0, r⟩, ⟨0, 0, -r⟩)],
    ![Real.sqrt 10, 2, 2, 0, 0, 0], ⟨?_, ?_, ?_, ?_⟩, ?_, ?_, ?_⟩
  · intro i k
    fin_cases i <;> fin_cases k <;> simp [inner6, dot] <;> linarith
  · rw [octahedron_centred]
    have h10 : Real.sqrt 10 ^ 2 = 10 := Real.sq_sqrt (by norm_num)
    intro i k
    fin_cases i <;> fin_cases k <;> simp [octahedron, total, inner6, dot, comp, h10] <;> ring
  · have h10 : 2 ≤ Real.sqrt 10 := by rw [Real.le_sqrt' (by norm_num)]; norm_num
    intro i k hik
    fin_cases i <;> fin_cases k <;> simp at hik ⊢ <;> linarith
  · intro i
    fin_cases i <;> simp
  · intro b hb
    have h1 : b.mul (inv3 b) = M3.one := by
      ext <;> simp only [M3.mul, inv3, smul3, M3.one] <;> field_simp <;> simp only [M3.det] <;> ring
    have h2 : (inv3 b).mul b = M3.one := by
      ext <;> simp only [M3.mul, inv3, smul3, M3.one] <;> field_simp <;> simp only [M3.det] <;> ring
    refine ⟨?_, ?_, ?_, ?_⟩
    · rw [h1, M3.one_mul]
    · rw [h2, M3.one_mul]
    · rw [h1]; rfl
    · rw [h2]; rfl
  · intro p hp
    simp only [octahedron, List.mem_cons, List.not_mem_nil, or_false] at hp
    rcases hp with rfl | rfl | rfl | rfl | rfl | rfl <;> ext <;> simp [M3.mulVec]
  · intro n d h
    have h1 := h (⟨1, 0, 0⟩, ⟨2, 0, 0⟩) (by simp [octahedron])
    have h2 := h (⟨-1, 0, 0⟩, ⟨-2, 0, 0⟩) (by simp [octahedron])
    have h3 := h (⟨0, 1, 0⟩, ⟨0, 1, 0⟩) (by simp [octahedron])
    have h4 := h (⟨0, 0, 1⟩, ⟨0, 0, 1⟩) (by simp [octahedron])
    simp [dot] at h1 h2 h3 h4
    ext <;> simp <;> linarith

namespace Super

/-- Three points, each its own target. -/
def triangle : List Pair := [(⟨1, 1, 0⟩, ⟨1, 1, 0⟩), (⟨-1, 1, 0⟩, ⟨-1, 1, 0⟩), (⟨0, -2, 0⟩, ⟨0, -2, 0⟩)]

theorem triangle_centred : centred triangle = triangle := by
  have h0 : mean triangle Prod.fst = 0 := by ext <;> simp [mean, total, triangle]; norm_num
  have h1 : mean triangle Prod.snd = 0 := by ext <;> simp [mean, total, triangle]; norm_num
  have : ∀ v : V3, v + -0 = v := by intro v; ext <;> simp
  simp [centred, h0, h1, this]

/-- Right singular vectors of the three pairs, with `2 r ^ 2 = 1`. -/
def triangleW (r : ℝ) : Fin 6 → Pair := ![(⟨0, r, 0⟩, ⟨0, r, 0⟩), (⟨r, 0, 0⟩, ⟨r, 0, 0⟩), (⟨r, 0, 0⟩, ⟨-r, 0, 0⟩),
  (⟨0, r, 0⟩, ⟨0, -r, 0⟩), (⟨0, 0, 1⟩, ⟨0, 0, 0⟩), (⟨0, 0, 0⟩, ⟨0, 0, 1⟩)]

end Super

/-- C97, violation: three points are accepted, but do not determine the affine map, and the result need not even fit
them: with this valid singular value decomposition of three points that are their own targets the first point is
moved. -/
theorem c97_affine_violation : ∃ (w : Fin 6 → Pair) (s : Fin 6 → ℝ) (x : M3),
    IsRightSvd (centred triangle) w s ∧
    IsPinv ⟨(w 0).1.x, (w 1).1.x, (w 2).1.x, (w 0).1.y, (w 1).1.y, (w 2).1.y, (w 0).1.z, (w 1).1.z, (w 2).1.z⟩ x ∧
    ∃ m, byAffine (fun _ => w) (fun _ => x) triangle = some (some m) ∧
      point (m.app (⟨1, 1, 0⟩, 1)) = ⟨0, 1, 0⟩ := by
  obtain ⟨r, hr⟩ : ∃ r : ℝ, r * r = 1 / 2 := ⟨Real.sqrt (1 / 2), Real.mul_self_sqrt (by norm_num)⟩
  refine ⟨triangleW r, ![Real.sqrt 12, 2, 0, 0, 0, 0], ⟨0, 2 * r, 0, r, 0, 0, r, 0, 0⟩, ⟨?_, ?_, ?_, ?_⟩,
    ⟨?_, ?_, ?_, ?_⟩, ?_⟩
  · intro i k
    fin_cases i <;> fin_cases k <;> simp [triangleW, inner6, dot] <;> linarith
  · rw [triangle_centred]
    have h12 : Real.sqrt 12 ^ 2 = 12 := Real.sq_sqrt (by norm_num)
    intro i k
    fin_cases i <;> fin_cases k <;> simp [triangleW, triangle, total, inner6, dot, comp, h12] <;> ring
  · have h12 : 2 ≤ Real.sqrt 12 := by rw [Real.le_sqrt' (by norm_num)]; norm_num
    intro i k hik
    fin_cases i <;> fin_cases k <;> simp at hik ⊢ <;> linarith
  · intro i
    fin_cases i <;> simp
  · ext <;> simp [triangleW, M3.mul] <;> first | linear_combination 2 * r * hr | linear_combination 4 * r * hr
  · ext <;> simp [triangleW, M3.mul] <;> first | linear_combination 2 * r * hr | linear_combination 4 * r * hr
  · ext <;> simp [triangleW, M3.mul, M3.T]
  · ext <;> simp [triangleW, M3.mul, M3.T]
  · have hp : place triangle false (shearBlock (fun _ => ⟨0, 2 * r, 0, r, 0, 0, r, 0, 0⟩) (triangleW r)) =
        some ⟨⟨0, 0, 0, 0, 1, 0, 0, 0, 0⟩, 0, 0, 1⟩ := by
      rcases hm : place triangle false (shearBlock (fun _ => ⟨0, 2 * r, 0, r, 0, 0, r, 0, 0⟩) (triangleW r)) with - | m
      · have := ((place_none (by simp [triangle]) _ _).mp hm).1
        cases this
      · obtain ⟨f, hf, -, ha, hb, hc, hd⟩ := place_some hm
        obtain rfl := hf rfl
        have h0 : mean triangle Prod.fst = 0 := by ext <;> simp [mean, total, triangle] <;> norm_num
        have h1 : mean triangle Prod.snd = 0 := by ext <;> simp [mean, total, triangle] <;> norm_num
        rw [h0, h1] at hb
        congr 1
        ext
        all_goals first
          | (rw [ha]; simp [smul3, shearBlock, triangleW, M3.mul]; try linear_combination 2 * hr)
          | (rw [hb]; simp [M3.mulVec])
          | (rw [hc])
          | (rw [hd])
    refine ⟨⟨⟨0, 0, 0, 0, 1, 0, 0, 0, 0⟩, 0, 0, 1⟩, ?_, ?_⟩
    · simp only [byAffine]
      rw [if_neg (by simp [triangle]), hp]
    · ext <;> simp [point, app, M3.mulVec, dot]

end RayOpt
