import Verif.Props.Limit
import Verif.Lemmas.ParaxialTrace
import Verif.Props.Trace

/-!
C19 for whole systems: elements along the z axis, also folded by mirrors, and single tilted
elements as placed by the code's rotations.
-/

namespace RayOpt

open V3 Shape Filter Topology Matrix Parax Sys Elem

/-- Reverse the y and z axes if `s = -1`. -/
def V3.turn (s : ℝ) (v : V3) : V3 := ⟨v.x, s * v.y, s * v.z⟩

/-- Placement along the z axis: upright for `s = 1`, turned over about the x axis for `s = -1`. -/
structure OnAxis (s : ℝ) (t : Transform) : Prop where
  sign : s = 1 ∨ s = -1
  reach : Reachable t
  into : ∀ v, t.toNormal v = v.turn s
  back : ∀ v, t.fromNormal v = v.turn s
  off : t.offset = ⟨0, 0, s * t.distance⟩
  ang : t.angles = 0

theorem reachable_update (d : ℝ) (v a : V3) : Reachable (Transform.update d v a) :=
  ⟨d, v, a, none, [], rfl⟩

/-- An element without angles in direction `(0, 0, 1)` or `(0, 0, -1)` is on the axis. -/
theorem onAxis_update (d s : ℝ) (hd : 0 ≤ d) (hs : s = 1 ∨ s = -1) :
    OnAxis s (Transform.update d ⟨0, 0, s⟩ 0) := by
  have hz : allclose (0 : V3) 0 := ⟨Transform.close_self _, Transform.close_self _, Transform.close_self _⟩
  have hdir : Transform.updDir d ⟨0, 0, s⟩ = ⟨0, 0, s⟩ := by
    have hn : V3.norm ⟨0, 0, s⟩ = 1 := norm_eq_one (by rcases hs with h | h <;> simp [dot, h])
    simp only [Transform.updDir, hn, if_neg (one_ne_zero), if_neg hd.not_gt]
    ext <;> simp
  have hoff : (Transform.update d ⟨0, 0, s⟩ 0).offset
      = ⟨0, 0, s * (Transform.update d ⟨0, 0, s⟩ 0).distance⟩ := by
    rw [Transform.update_offset, Transform.update_direction, hdir]
    ext <;> simp [mul_comm]
  have hang := Transform.update_angles d ⟨0, 0, s⟩ 0
  have hrot : (∀ v, (Transform.update d ⟨0, 0, s⟩ 0).toNormal v = v.turn s) ∧
      ∀ v, (Transform.update d ⟨0, 0, s⟩ 0).fromNormal v = v.turn s := by
    rcases hs with rfl | rfl
    · have : allclose ⟨0, 0, 1⟩ ez := ⟨Transform.close_self _, Transform.close_self _, Transform.close_self _⟩
      have hr : (Transform.update d ⟨0, 0, 1⟩ 0).rotNormal = none := by
        rw [Transform.update_rotNormal, hdir, if_pos ⟨hz, this⟩]
      simp only [Transform.toNormal, Transform.fromNormal, hr, Transform.doRotate]
      constructor <;> intro v <;> ext <;> simp [V3.turn]
    · have hns : ¬allclose ⟨0, 0, -1⟩ ez := by
        rintro ⟨_, _, hz⟩; simp [close, ez] at hz; norm_num [abs_of_neg] at hz
      have hR : Transform.updRot ⟨0, 0, -1⟩ = ⟨1, 0, 0, 0, -1, 0, 0, 0, -1⟩ := by
        have hc : V3.cross ⟨0, 0, -1⟩ ez = 0 := by ext <;> simp [cross, ez]
        have hn : V3.norm 0 = 0 := norm_eq_zero.mpr rfl
        have hu : V3.norm ⟨1, 0, 0⟩ = 1 := norm_eq_one (by simp [dot])
        unfold Transform.updRot
        rw [hc]
        dsimp only
        rw [hn, if_pos hz, Real.arcsin_zero]
        have : (if (-1 : ℝ) < 0 then Real.pi - 0 else 0) = Real.pi := by norm_num
        rw [this]
        simp [rotationMatrix, unitVector, hu]
      have hr : (Transform.update d ⟨0, 0, -1⟩ 0).rotNormal
          = some ⟨1, 0, 0, 0, -1, 0, 0, 0, -1⟩ := by
        rw [Transform.update_rotNormal, hdir, if_neg (fun h => hns h.2), if_neg hns]
        dsimp only
        rw [if_pos hz, hR]
        simp [M3.one, M3.mul]
      simp only [Transform.toNormal, Transform.fromNormal, hr, Transform.doRotate]
      constructor <;> intro v <;> ext <;> simp [V3.turn, M3.vecMul, M3.T]
  exact ⟨hs, reachable_update _ _ _, hrot.1, hrot.2, hoff, hang⟩

theorem HasD.turn {f : ℝ → V3} {f0 f' : V3} (s : ℝ) (h : HasD f f0 f') :
    HasD (fun t => (f t).turn s) (f0.turn s) (f'.turn s) :=
  ⟨by simp only [h.at0], h.x, h.y.const_mul s, h.z.const_mul s⟩

/-- Without roll the conjugation in `Spheroid.paraxial_matrix` changes nothing. -/
theorem rotMat_zero_conj {N : PM} (hN : Decoupled N) : rotMat 0 * (N * (rotMat 0)ᵀ) = N := by
  have hN1 := hN 0 1 (by decide)
  have hN2 := hN 1 0 (by decide)
  rw [rotMat_transpose]
  conv_lhs => rw [← fromBlocks_toBlocks N]
  conv_rhs => rw [← fromBlocks_toBlocks N]
  unfold rotMat
  rw [fromBlocks_multiply, fromBlocks_multiply]
  congr 1 <;> ext a b <;> fin_cases a <;> fin_cases b <;>
      simp_all [rotBlock, Matrix.mul_apply, Fin.sum_univ_two, toBlocks₁₁, toBlocks₁₂, toBlocks₂₁,
        toBlocks₂₂, Matrix.vecMul, dotProduct]

/-- The first-order state of a ray travelling along the axis. -/
def axialState (n : ℝ) (y' u' : V3) : PVec := Sum.elim ![y'.x, y'.y] ![n * u'.x, n * u'.y]

/-- Specification: `r` is a curve of rays in index `n` which at parameter zero is the axis itself,
in direction `s`, and whose velocity is the paraxial ray `v`. -/
def Near (s n : ℝ) (r : ℝ → Ray) (v : PVec) : Prop :=
  ∃ (Y U : ℝ → V3) (Y' U' : V3), (∀ᶠ t in 𝓝 0, r t = ⟨some (Y t), some (U t), n⟩) ∧
    HasD Y 0 Y' ∧ HasD U ⟨0, 0, s⟩ U' ∧ (∀ᶠ t in 𝓝 0, (U t).norm = 1) ∧ v = axialState n Y' U'

/-- The mirror turns the direction of travel. -/
noncomputable def sideAfter (s : ℝ) (e : Elem) : ℝ :=
  if e.shape.isSome ∧ e.mat.any (·.mirror) then -s else s

/-- What is asked of one element met in index `n`: finite positive indices, an aperture that is not
a point, an intersection routine that works near the vertex to first order, and mirrors in air. -/
structure Fair (nwt : NewtonFn) (l n s : ℝ) (e : Elem) : Prop where
  axis : OnAxis s e.tf
  pos : 0 < n
  opening : e.radius.Open
  near : ∀ sh, e.shape = some sh → NearHit nwt sh ⟨0, 0, 1⟩ e.tf.distance
  curv : ∀ sh, e.shape = some sh → sh.paraxCurv ≠ none
  index : ∀ m, e.mat = some m → 0 < m.index l
  air : ∀ m, e.mat = some m → m.mirror = true → n = 1 ∧ m.index l = 1

/-- The same with an intersection routine that works to second order. -/
structure Fine (nwt : NewtonFn) (l n s : ℝ) (e : Elem) : Prop extends Fair nwt l n s e where
  close : ∀ sh, e.shape = some sh → CloseHit nwt sh ⟨0, 0, 1⟩ e.tf.distance

/-- The same with an intersection routine that is exact near the vertex. -/
structure Good (nwt : NewtonFn) (l n s : ℝ) (e : Elem) : Prop extends Fine nwt l n s e where
  hit : ∀ sh, e.shape = some sh → AxialHit nwt sh ⟨0, 0, 1⟩ e.tf.distance

theorem Fine.of {nwt : NewtonFn} {l n s : ℝ} {e : Elem} (axis : OnAxis s e.tf) (pos : 0 < n) (opening : e.radius.Open)
    (close : ∀ sh, e.shape = some sh → CloseHit nwt sh ⟨0, 0, 1⟩ e.tf.distance)
    (curv : ∀ sh, e.shape = some sh → sh.paraxCurv ≠ none) (index : ∀ m, e.mat = some m → 0 < m.index l)
    (air : ∀ m, e.mat = some m → m.mirror = true → n = 1 ∧ m.index l = 1) : Fine nwt l n s e :=
  ⟨⟨axis, pos, opening, fun sh h => (close sh h).near, curv, index, air⟩, close⟩

theorem Good.of {nwt : NewtonFn} {l n s : ℝ} {e : Elem} (axis : OnAxis s e.tf) (pos : 0 < n) (opening : e.radius.Open)
    (hit : ∀ sh, e.shape = some sh → AxialHit nwt sh ⟨0, 0, 1⟩ e.tf.distance)
    (curv : ∀ sh, e.shape = some sh → sh.paraxCurv ≠ none) (index : ∀ m, e.mat = some m → 0 < m.index l)
    (air : ∀ m, e.mat = some m → m.mirror = true → n = 1 ∧ m.index l = 1) : Good nwt l n s e :=
  ⟨Fine.of axis pos opening (fun sh h => (hit sh h).close) curv index air, hit⟩

theorem sum_elim_turn {M : PM} (hM : Decoupled M) (s n n' : ℝ) (hs : s = 1 ∨ s = -1) (y' u' q' w' : V3)
    (h : Sum.elim ![q'.x, q'.y] ![n' * w'.x, n' * w'.y]
      = M *ᵥ Sum.elim ![y'.x, s * y'.y] ![n * u'.x, n * (s * u'.y)]) :
    M *ᵥ axialState n y' u' = axialState n' (q'.turn s) (w'.turn s) := by
  have h0 := congrFun h (.inl 0)
  have h1 := congrFun h (.inl 1)
  have h2 := congrFun h (.inr 0)
  have h3 := congrFun h (.inr 1)
  rw [(hM.mulVec _ 0).1] at h0
  rw [(hM.mulVec _ 1).1] at h1
  rw [(hM.mulVec _ 0).2] at h2
  rw [(hM.mulVec _ 1).2] at h3
  simp only [Sum.elim_inl, Sum.elim_inr, cons_val_zero, cons_val_one] at h0 h1 h2 h3
  have hss : s * s = 1 := by rcases hs with h | h <;> rw [h] <;> norm_num
  unfold axialState V3.turn
  funext i
  rcases i with i | i <;> fin_cases i
  · have := (hM.mulVec (Sum.elim ![y'.x, y'.y] ![n * u'.x, n * u'.y]) 0).1
    simp only [Sum.elim_inl, Sum.elim_inr, cons_val_zero] at this
    simp only [Fin.zero_eta, Sum.elim_inl, cons_val_zero]
    rw [this, h0]
  · have := (hM.mulVec (Sum.elim ![y'.x, y'.y] ![n * u'.x, n * u'.y]) 1).1
    simp only [Sum.elim_inl, Sum.elim_inr, cons_val_zero, cons_val_one] at this
    simp only [Fin.mk_one, Sum.elim_inl, cons_val_one]
    simp only [cons_val_zero]
    rw [this, h1]
    linear_combination (-(M (.inl 1) (.inl 1) * y'.y + M (.inl 1) (.inr 1) * (n * u'.y))) * hss
  · have := (hM.mulVec (Sum.elim ![y'.x, y'.y] ![n * u'.x, n * u'.y]) 0).2
    simp only [Sum.elim_inl, Sum.elim_inr, cons_val_zero] at this
    simp only [Fin.zero_eta, Sum.elim_inr, cons_val_zero]
    rw [this, h2]
  · have := (hM.mulVec (Sum.elim ![y'.x, y'.y] ![n * u'.x, n * u'.y]) 1).2
    simp only [Sum.elim_inl, Sum.elim_inr, cons_val_zero, cons_val_one] at this
    simp only [Fin.mk_one, Sum.elim_inr, cons_val_one]
    simp only [cons_val_zero]
    rw [this]
    linear_combination (-(M (.inr 1) (.inl 1) * y'.y + M (.inr 1) (.inr 1) * (n * u'.y))) * hss
      - s * h3

/-- One element. -/
theorem near_step (nwt : NewtonFn) (l n s : ℝ) (clp : Bool) (e : Elem) (r : ℝ → Ray) (v : PVec)
    (hg : Fair nwt l n s e) (hr : Near s n r v) :
    ∃ v' n', e.propagateParaxial v n l = some (v', n') ∧
      Near (sideAfter s e) n' (fun t => (step nwt l clp e (r t)).2) v' := by
  obtain ⟨Y, U, Y', U', hr, hY, hU, hunit, rfl⟩ := hr
  have hss : s * s = 1 := by rcases hg.axis.sign with h | h <;> rw [h] <;> norm_num
  set d := e.tf.distance with hd
  have hzz : (⟨0, 0, s⟩ : V3).turn s = ⟨0, 0, 1⟩ := by ext <;> simp [V3.turn, hss]
  -- the curve in the element's coordinates
  have hYl : HasD (fun t => (Y t - e.tf.offset).turn s) (-(d • ⟨0, 0, 1⟩)) (Y'.turn s) := by
    have h0 : HasD (fun _ : ℝ => e.tf.offset) e.tf.offset 0 :=
      ⟨rfl, hasDerivAt_const _ _, hasDerivAt_const _ _, hasDerivAt_const _ _⟩
    refine ((hY.sub h0).turn s).congr ?_ ?_
    · rw [hg.axis.off]; ext <;> simp [V3.turn, ← hd]
      linear_combination d * hss
    · ext <;> simp [V3.turn]
  have hUl : HasD (fun t => (U t).turn s) ⟨0, 0, 1⟩ (U'.turn s) := (hU.turn s).congr hzz rfl
  have hunitl : ∀ᶠ t in 𝓝 0, ((U t).turn s).norm = 1 := by
    filter_upwards [hunit] with t ht
    apply norm_eq_one
    have := dot_self_of_norm ht
    simp only [dot, V3.turn] at this ⊢
    linear_combination this + ((U t).y * (U t).y + (U t).z * (U t).z) * hss
  have hstep : ∀ᶠ t in 𝓝 0, (step nwt l clp e (r t)).2 =
      ⟨(e.propagate nwt (some ((Y t - e.tf.offset).turn s)) (some ((U t).turn s)) n l clp).y.map
          (V3.turn s),
       (e.propagate nwt (some ((Y t - e.tf.offset).turn s)) (some ((U t).turn s)) n l clp).u.map
          (V3.turn s),
       (e.propagate nwt (some ((Y t - e.tf.offset).turn s)) (some ((U t).turn s)) n l clp).n⟩ := by
    filter_upwards [hr] with t ht
    have hb : e.tf.fromNormal = V3.turn s := funext hg.axis.back
    simp only [step, ht, Option.map_some, hg.axis.into, hb]
  have hunit2 : ∀ᶠ t in 𝓝 0, UnitOrNone (step nwt l clp e (r t)).2.u := by
    filter_upwards [hr, hunit] with t ht h1
    refine (step_unit nwt (l := l) clp e (r t) hg.axis.reach ?_).2.2
    rw [ht]; intro w hw; cases hw; exact h1
  have hconj : ∀ {N : PM}, Decoupled N →
      rotMat e.tf.angles.z * (N * (rotMat e.tf.angles.z)ᵀ) = N := by
    intro N hN; rw [hg.axis.ang]; exact rotMat_zero_conj hN
  have hcos : Real.cos 0 = 1 := Real.cos_zero
  -- collecting the result
  have finish : ∀ (Q U2 : ℝ → V3) (Q' U2' : V3) (n' s' : ℝ) (M : PM),
      (∀ᶠ t in 𝓝 0,
        (e.propagate nwt (some ((Y t - e.tf.offset).turn s)) (some ((U t).turn s)) n l clp).y
          = some (Q t) ∧
        (e.propagate nwt (some ((Y t - e.tf.offset).turn s)) (some ((U t).turn s)) n l clp).u
          = some (U2 t) ∧
        (e.propagate nwt (some ((Y t - e.tf.offset).turn s)) (some ((U t).turn s)) n l clp).n
          = n') → HasD Q 0 Q' → HasD U2 ⟨0, 0, s'⟩ U2' → s * s' = sideAfter s e → Decoupled M →
      beam n' ⟨0, 1, 0⟩ Q' U2' = M *ᵥ beam n ⟨0, 1, 0⟩ (Y'.turn s) (U'.turn s) →
      e.paraxialMatrix n l = some (n', M) →
      ∃ v' n', e.propagateParaxial (axialState n Y' U') n l = some (v', n') ∧
        Near (sideAfter s e) n' (fun t => (step nwt l clp e (r t)).2) v' := by
    intro Q U2 Q' U2' n' s' M hev hQ hU2 hside hM hbeam hpm
    refine ⟨M *ᵥ axialState n Y' U', n', by rw [Elem.propagateParaxial, hpm]; rfl,
      fun t => (Q t).turn s, fun t => (U2 t).turn s, Q'.turn s, U2'.turn s, ?_, ?_, ?_, ?_, ?_⟩
    · filter_upwards [hstep, hev] with t h1 h2
      rw [h1, h2.1, h2.2.1, h2.2.2]; rfl
    · exact (hQ.turn s).congr (by ext <;> simp [V3.turn]) rfl
    · exact (hU2.turn s).congr (by ext <;> simp [V3.turn, hside]) rfl
    · filter_upwards [hstep, hev, hunit2] with t h1 h2 h3
      rw [h1] at h3
      exact h3 _ (by rw [h2.2.1]; rfl)
    · apply sum_elim_turn hM s n n' hg.axis.sign
      simpa [beam_eq, V3.turn] using hbeam
  have hn0 : n ≠ 0 := hg.pos.ne'
  cases hsh : e.shape with
  | none =>
    obtain ⟨Q, Q', hev, hQ, hb⟩ := c19_dummy nwt e n l d 0 0 clp (by simp [hsh]) hg.pos
      (by rw [hcos]; norm_num) hg.opening _ _ _ _ (by rw [hcos]; exact hYl) (by rw [hcos]; exact hUl)
      hunitl
    refine finish _ _ _ _ n 1 (transfer d n) hev hQ hUl ?_ (transfer_decoupled _ _) ?_ ?_
    · simp [sideAfter, hsh]
    · simpa [hcos] using hb
    · simp [Elem.paraxialMatrix, hsh, hn0, hd]
  | some sh =>
    obtain ⟨c, hc⟩ := Option.ne_none_iff_exists'.mp (hg.curv sh hsh)
    have hhit : NearHit nwt sh ⟨0, 0, Real.cos 0⟩ d := by rw [hcos]; exact hg.near sh hsh
    have hYl' : HasD (fun t => (Y t - e.tf.offset).turn s) (-(d • ⟨0, 0, Real.cos 0⟩)) (Y'.turn s) := by
      rw [hcos]; exact hYl
    have hUl' : HasD (fun t => (U t).turn s) ⟨0, 0, Real.cos 0⟩ (U'.turn s) := by
      rw [hcos]; exact hUl
    have hpmx : ∀ M n', Elem.surfMat sh e.mat 0 n n' = some M → e.paraxN n l = n' →
        Decoupled (M * transfer d n) → e.paraxialMatrix n l = some (n', M * transfer d n) := by
      intro M n' h1 h2 h3
      have ha : e.tf.angles.x = 0 := by rw [hg.axis.ang]; rfl
      simp only [Elem.paraxialMatrix, if_neg hn0, hsh, h2, ha, h1, Option.map_some]
      rw [hconj h3]
    cases hm : e.mat with
    | none =>
      obtain ⟨Q, Q', hev, hQ, hb⟩ := c19_dummy nwt e n l d 0 0 clp
        (by intro sh' h'; rw [hsh] at h'; cases h'; exact ⟨hm, hhit⟩) hg.pos
        (by rw [hcos]; norm_num) hg.opening _ _ _ _ hYl' hUl' hunitl
      refine finish _ _ _ _ n 1 (1 * transfer d n) hev hQ hUl ?_
        (Decoupled.one.mul (transfer_decoupled _ _)) ?_ (hpmx 1 n ?_ ?_ ?_)
      · simp [sideAfter, hm]
      · simpa [hcos] using hb
      · simp [surfMat, hc, hm]
      · simp [paraxN, index?, hsh, hm]
      · exact Decoupled.one.mul (transfer_decoupled _ _)
    | some m =>
      have hidx := hg.index m hm
      have hpn : e.paraxN n l = m.index l := by simp [paraxN, index?, hsh, hm]
      by_cases hmir : m.mirror = true
      · obtain ⟨h1, h2⟩ := hg.air m hm hmir
        obtain ⟨Q, U2, Q', U2', hev, hQ, hU2, hb, hM⟩ := c19_mirror nwt e sh m n l d 0 c 0 clp hsh hm
          hmir hg.pos (by simp) (by rw [hcos]; norm_num) hg.opening hhit hc _ _ _ _ hYl' hUl' hunitl
        have hdec : Decoupled (mirrorMat c (Real.cos 0) * transfer d n) :=
          (surfMat_decoupled hM).mul (transfer_decoupled _ _)
        refine finish _ _ _ _ n (-1) _ hev hQ (by simpa [hcos] using hU2) ?_ hdec ?_
          (hpmx _ n ?_ ?_ hdec)
        · simp [sideAfter, hsh, hm, hmir]
        · rw [h1, one_mul] at hb; rw [h1]; simpa [hcos] using hb
        · rw [h2] at hM; rw [h1] at hM ⊢; exact hM
        · rw [hpn, h1, h2]
      · have hmir' : m.mirror = false := by simpa using hmir
        have hM : surfMat sh e.mat 0 n (m.index l)
            = some (refractMat c n (m.index l / n) (Real.cos 0)) := by
          have hmu : 0 < m.index l / n := div_pos hidx hg.pos
          simp only [surfMat, hc, Option.bind_some, hm, hmir', Bool.false_eq_true, if_false, hcos]
          rw [if_neg]
          push Not
          refine ⟨hmu.ne', one_ne_zero, by nlinarith⟩
        obtain ⟨Q, U2, Q', U2', s2, c2, hev, hQ, hU2, hs2, hc2, hsc, hb⟩ :=
          c19_refract nwt e sh m n l d 0 0 clp hsh hm hmir' hg.pos hidx (by simp)
            (by rw [hcos]; norm_num) (by simp; positivity) hg.opening hhit _ hM _ _ _ _ hYl' hUl'
            hunitl
        have e1 : s2 = 0 := by
          rw [mul_zero] at hs2
          exact (mul_eq_zero.mp hs2).resolve_left hidx.ne'
        have e2 : c2 = 1 := by rw [e1] at hsc; nlinarith
        subst e1; subst e2
        have hdec := (surfMat_decoupled hM).mul (transfer_decoupled d n)
        refine finish _ _ _ _ (m.index l) 1 _ hev hQ hU2 ?_ hdec ?_ (hpmx _ _ hM hpn hdec)
        · simp [sideAfter, hm, hmir']
        · simpa [hcos] using hb

/-- What is asked of the elements of a system, in order. -/
def GoodFrom (nwt : NewtonFn) (l : ℝ) : ℝ → ℝ → List Elem → Prop
  | _, _, [] => True
  | n, s, e :: es => Good nwt l n s e ∧
      GoodFrom nwt l (e.paraxN n l) (sideAfter s e) es

/-- The same to second order. -/
def FineFrom (nwt : NewtonFn) (l : ℝ) : ℝ → ℝ → List Elem → Prop
  | _, _, [] => True
  | n, s, e :: es => Fine nwt l n s e ∧
      FineFrom nwt l (e.paraxN n l) (sideAfter s e) es

/-- The same to first order. -/
def FairFrom (nwt : NewtonFn) (l : ℝ) : ℝ → ℝ → List Elem → Prop
  | _, _, [] => True
  | n, s, e :: es => Fair nwt l n s e ∧
      FairFrom nwt l (e.paraxN n l) (sideAfter s e) es

theorem GoodFrom.fine {nwt : NewtonFn} {l : ℝ} {es : List Elem} : ∀ {n s : ℝ}, GoodFrom nwt l n s es →
    FineFrom nwt l n s es := by
  induction es with
  | nil => intro n s _; trivial
  | cons e es ih => intro n s h; exact ⟨h.1.toFine, ih h.2⟩

theorem FineFrom.fair {nwt : NewtonFn} {l : ℝ} {es : List Elem} : ∀ {n s : ℝ}, FineFrom nwt l n s es →
    FairFrom nwt l n s es := by
  induction es with
  | nil => intro n s _; trivial
  | cons e es ih => intro n s h; exact ⟨h.1.toFair, ih h.2⟩

/-- The side after the first `j` elements. -/
noncomputable def sideAt (s : ℝ) : List Elem → ℕ → ℝ
  | _, 0 => s
  | [], _ => s
  | e :: es, j + 1 => sideAt (sideAfter s e) es j

/-- C19, whole systems: for elements along the axis (turned over after every mirror) the paraxial
trace exists, and after every element it is the velocity of the real trace along any curve of unit
rays through the axis. -/
theorem c19_system (nwt : NewtonFn) (l n s : ℝ) (clp : Bool) (es : List Elem) (r : ℝ → Ray)
    (v : PVec) (hg : FairFrom nwt l n s es) (hr : Near s n r v) :
    ∃ out, scanM (fun e x => e.propagateParaxial x.1 x.2 l) es (v, n) = some out ∧
      out.length = es.length ∧
      ∀ (j : ℕ) (e : Elem) (p : PVec × ℝ), es[j]? = some e → out[j]? = some p →
        ∃ row : ℝ → Row, (∀ t, (rows nwt l clp es (r t))[j]? = some (row t)) ∧
          Near (sideAt s es (j + 1)) p.2 (fun t => rayOfRow e (row t)) p.1 := by
  induction es generalizing n s r v with
  | nil => exact ⟨[], rfl, rfl, fun j e p h => by simp at h⟩
  | cons e es ih =>
    obtain ⟨hg1, hg2⟩ := hg
    obtain ⟨v', n', hp, hn⟩ := near_step nwt l n s clp e r v hg1 hr
    have hn' : n' = e.paraxN n l := by
      unfold Elem.propagateParaxial at hp
      obtain ⟨nm, hnm, heq⟩ := Option.map_eq_some_iff.mp hp
      have : n' = nm.1 := by cases heq; rfl
      rw [this, paraxialMatrix_fst hnm]
    rw [← hn'] at hg2
    obtain ⟨out, ho, hl, hj⟩ := ih n' _ _ v' hg2 hn
    refine ⟨(v', n') :: out, ?_, by simp [hl], ?_⟩
    · simp only [scanM, hp, Option.bind_some, ho, Option.map_some]
    · intro j e' p he hpj
      cases j with
      | zero =>
        simp only [List.getElem?_cons_zero, Option.some.injEq] at he hpj
        subst he; subst hpj
        refine ⟨fun t => (step nwt l clp e (r t)).1, fun t => rfl, ?_⟩
        simp only [sideAt]
        exact hn
      | succ j =>
        simp only [List.getElem?_cons_succ] at he hpj
        obtain ⟨row, h1, h2⟩ := hj j e' p he hpj
        exact ⟨row, fun t => by simp only [rows, List.getElem?_cons_succ, h1 t], h2⟩

/-- C19 does not hold for a curved mirror in a medium of index other than 1: the code's matrix then
differs from the derivative of the real trace, whatever the curvature and the index. -/
theorem c19_violated_immersed_mirror (nwt : NewtonFn) (e : Elem) (sh : Shape) (m : Material)
    (n0 l c : ℝ) (he : e.shape = some sh) (hm : e.mat = some m) (hmir : m.mirror = true)
    (hn0 : 0 < n0) (hn1 : n0 ≠ 1) (hc : c ≠ 0) (hR : e.radius.Open) (hcur : sh.paraxCurv = some c)
    (hhit : NearHit nwt sh ⟨0, 0, 1⟩ 0) :
    ∃ (Y U Q U2 : ℝ → V3) (Y' U' Q' U2' : V3), HasD Y 0 Y' ∧ HasD U ⟨0, 0, 1⟩ U' ∧
      (∀ t, (U t).norm = 1) ∧ HasD Q 0 Q' ∧ HasD U2 ⟨0, 0, -1⟩ U2' ∧
      (∀ᶠ t in 𝓝 0, (e.propagate nwt (some (Y t)) (some (U t)) n0 l false).y = some (Q t) ∧
        (e.propagate nwt (some (Y t)) (some (U t)) n0 l false).u = some (U2 t)) ∧
      ∀ M, Elem.surfMat sh e.mat 0 n0 (m.index l) = some M →
        axialState n0 Q' U2' ≠ M *ᵥ axialState n0 Y' U' := by
  have hcos : Real.cos 0 = 1 := Real.cos_zero
  have hY : HasD (fun t => (⟨t, 0, 0⟩ : V3)) 0 ⟨1, 0, 0⟩ :=
    ⟨rfl, hasDerivAt_id _, hasDerivAt_const _ _, hasDerivAt_const _ _⟩
  have hU : HasD (fun _ : ℝ => (⟨0, 0, 1⟩ : V3)) ⟨0, 0, 1⟩ 0 :=
    ⟨rfl, hasDerivAt_const _ _, hasDerivAt_const _ _, hasDerivAt_const _ _⟩
  have hu : V3.norm ⟨0, 0, 1⟩ = 1 := norm_eq_one (by simp [dot])
  obtain ⟨Q, U2, Q', U2', hev, hQ, hU2, hb, hM⟩ := c19_mirror nwt e sh m n0 l 0 0 c 0 false he hm
    hmir hn0 (by simp) (by rw [hcos]; norm_num) hR (by rw [hcos]; exact hhit) hcur _ _ _ _
    (hY.congr (by ext <;> simp) rfl) (by rw [hcos]; exact hU) (.of_forall fun _ => hu)
  refine ⟨_, _, Q, U2, _, _, Q', U2', hY, hU, fun _ => hu, hQ, by simpa [hcos] using hU2, ?_, ?_⟩
  · filter_upwards [hev] with t h
    exact ⟨h.1, h.2.1⟩
  · intro M hM' heq
    rw [hM] at hM'
    cases hM'
    rw [hcos, beam_eq, beam_eq, mirrorMat] at hb
    rw [show (1 : M2) = !![1, 0; 0, 1] by ext i j; fin_cases i <;> fin_cases j <;> rfl,
      surface_action] at hb
    have h1 := congrFun hb (.inr 0)
    have h2 := congrFun heq (.inr 0)
    have hd := (surfMat_decoupled hM).mulVec (axialState n0 ⟨1, 0, 0⟩ 0) 0
    rw [hd.2] at h2
    simp only [axialState, hcos, mirrorMat, Sum.elim_inr, Sum.elim_inl, cons_val_zero,
      fromBlocks_apply₂₁, fromBlocks_apply₂₂, of_apply, zero_x] at h1 h2
    rw [h2] at h1
    have h3 : n0 * c = 1 * c := by linarith
    exact hn1 (mul_right_cancel₀ hc h3)

/-! ### Tilted elements -/

theorem tilt_rotation (d θ : ℝ) (hd : 0 ≤ d) (hθ : ¬close θ 0) :
    (∀ v : V3, (Transform.update d ez ⟨θ, 0, 0⟩).toNormal v =
      ⟨v.x, Real.cos θ * v.y - Real.sin θ * v.z, Real.sin θ * v.y + Real.cos θ * v.z⟩) ∧
    (Transform.update d ez ⟨θ, 0, 0⟩).offset = ⟨0, 0, d⟩ ∧
    (Transform.update d ez ⟨θ, 0, 0⟩).distance = d := by
  have hdir : Transform.updDir d ez = ez := by
    have hn : V3.norm ez = 1 := norm_eq_one (by simp [dot, ez])
    simp only [Transform.updDir, hn, if_neg (one_ne_zero), if_neg hd.not_gt]
    ext <;> simp
  have hna : ¬allclose ⟨θ, 0, 0⟩ 0 := fun h => hθ h.1
  have hs : allclose ez ez :=
    ⟨Transform.close_self _, Transform.close_self _, Transform.close_self _⟩
  have hr : (Transform.update d ez ⟨θ, 0, 0⟩).rotNormal
      = some ⟨1, 0, 0, 0, Real.cos θ, -Real.sin θ, 0, Real.sin θ, Real.cos θ⟩ := by
    rw [Transform.update_rotNormal, hdir, if_neg (fun h => hna h.1), if_pos hs]
    dsimp only
    rw [if_neg hna]
    simp [M3.one, M3.mul, eulerMatrix, Axes.rxyz, Axes.ijk, nextAxis, axisPos]
  refine ⟨fun v => ?_, ?_, ?_⟩
  · simp only [Transform.toNormal, hr, Transform.doRotate, if_true]
    ext <;> simp [M3.vecMul, M3.T] <;> ring
  · rw [Transform.update_offset, Transform.update_distance, Transform.update_direction, hdir,
      abs_of_nonneg hd]
    ext <;> simp [ez]
  · rw [Transform.update_distance, abs_of_nonneg hd]

section Tilt

variable (nwt : NewtonFn) (e : Elem) (sh : Shape) (m : Material) (n0 l d θ : ℝ) (clp : Bool)

/-- The curve of rays in the coordinates of a tilted element. -/
theorem tilt_curve (hd : 0 ≤ d) (hθ : ¬close θ 0) (ht : e.tf = Transform.update d ez ⟨θ, 0, 0⟩)
    {Y U : ℝ → V3} {Y' U' : V3} (hY : HasD Y 0 Y') (hU : HasD U ez U')
    (hunit : ∀ᶠ t in 𝓝 0, (U t).norm = 1) :
    ∃ y' u' : V3, HasD (fun t => e.tf.toNormal (Y t - e.tf.offset))
        (-(d • ⟨0, -Real.sin θ, Real.cos θ⟩)) y' ∧
      HasD (fun t => e.tf.toNormal (U t)) ⟨0, -Real.sin θ, Real.cos θ⟩ u' ∧
      (∀ᶠ t in 𝓝 0, (e.tf.toNormal (U t)).norm = 1) ∧
      beam n0 ⟨0, Real.cos θ, -(-Real.sin θ)⟩ y' u' = axialState n0 Y' U' := by
  obtain ⟨hto, hoff, -⟩ := tilt_rotation d θ hd hθ
  rw [← ht] at hto hoff
  have hsc := Real.sin_sq_add_cos_sq θ
  have hrot : ∀ {f : ℝ → V3} {f0 f' : V3}, HasD f f0 f' →
      HasD (fun t => e.tf.toNormal (f t)) (e.tf.toNormal f0) (e.tf.toNormal f') := by
    intro f f0 f' h
    simp only [hto]
    exact ⟨by simp only [h.at0], h.x, (h.y.const_mul _).sub (h.z.const_mul _),
      (h.y.const_mul _).add (h.z.const_mul _)⟩
  have h0 : HasD (fun _ : ℝ => e.tf.offset) e.tf.offset 0 :=
    ⟨rfl, hasDerivAt_const _ _, hasDerivAt_const _ _, hasDerivAt_const _ _⟩
  refine ⟨_, _, (hrot (hY.sub h0)).congr ?_ rfl, (hrot hU).congr ?_ rfl, ?_, ?_⟩
  · rw [hto, hoff]; ext <;> simp <;> ring
  · rw [hto]; ext <;> simp [ez]
  · filter_upwards [hunit] with t h
    apply norm_eq_one
    have := dot_self_of_norm h
    rw [hto]
    simp only [dot] at this ⊢
    linear_combination this + ((U t).y ^ 2 + (U t).z ^ 2) * hsc
  · rw [beam_eq, hto, hto]
    simp only [sub_x, sub_y, sub_z, zero_x, zero_y, zero_z, sub_zero, axialState]
    congr 1
    · congr 1
      congr 1
      linear_combination Y'.y * hsc
    · congr 1
      congr 1
      linear_combination n0 * U'.y * hsc

/-- C19 for a refracting surface tilted by `angles = (θ, 0, 0)`: the paraxial ray after it is the
velocity of the real rays, measured across the refracted chief ray `(0, s2, c2)`. -/
theorem c19_tilted (hd : 0 ≤ d) (hθ : ¬close θ 0) (ht : e.tf = Transform.update d ez ⟨θ, 0, 0⟩)
    (he : e.shape = some sh) (hm : e.mat = some m) (hmir : m.mirror = false) (hn0 : 0 < n0)
    (hn : 0 < m.index l) (hc1 : 0 < Real.cos θ)
    (htir : n0 ^ 2 * Real.sin θ ^ 2 < m.index l ^ 2) (hR : e.radius.Open)
    (hhit : NearHit nwt sh ⟨0, -Real.sin θ, Real.cos θ⟩ d) (hcur : sh.paraxCurv ≠ none)
    (Y U : ℝ → V3) (Y' U' : V3) (hY : HasD Y 0 Y') (hU : HasD U ez U')
    (hunit : ∀ᶠ t in 𝓝 0, (U t).norm = 1) :
    ∃ (Q U2 : ℝ → V3) (Q' U2' : V3) (s2 c2 : ℝ),
      (∀ᶠ t in 𝓝 0, (step nwt l clp e ⟨some (Y t), some (U t), n0⟩).1.y = some (Q t) ∧
        (step nwt l clp e ⟨some (Y t), some (U t), n0⟩).1.u = some (U2 t) ∧
        (step nwt l clp e ⟨some (Y t), some (U t), n0⟩).1.n = m.index l) ∧
      HasD Q 0 Q' ∧ HasD U2 ⟨0, s2, c2⟩ U2' ∧
      m.index l * s2 = n0 * -Real.sin θ ∧ 0 < c2 ∧ s2 ^ 2 + c2 ^ 2 = 1 ∧
      e.propagateParaxial (axialState n0 Y' U') n0 l
        = some (beam (m.index l) ⟨0, c2, -s2⟩ Q' U2', m.index l) := by
  obtain ⟨y', u', hy, hu, hun, hb⟩ := tilt_curve e n0 d θ hd hθ ht hY hU hunit
  obtain ⟨c, hc⟩ := Option.ne_none_iff_exists'.mp hcur
  have hdist : e.tf.distance = d := by rw [ht]; exact (tilt_rotation d θ hd hθ).2.2
  have hang : e.tf.angles = ⟨θ, 0, 0⟩ := by rw [ht]; exact Transform.update_angles _ _ _
  have hM : surfMat sh e.mat θ n0 (m.index l)
      = some (refractMat c n0 (m.index l / n0) (Real.cos θ)) := by
    have hmu : 0 < m.index l / n0 := div_pos hn hn0
    simp only [surfMat, hc, Option.bind_some, hm, hmir, Bool.false_eq_true, if_false]
    rw [if_neg]
    push Not
    refine ⟨hmu.ne', hc1.ne', ?_⟩
    have h1 : Real.sin θ ^ 2 < (m.index l / n0) ^ 2 := by
      rw [div_pow, lt_div_iff₀ (by positivity)]; linarith
    have := Real.sin_sq_add_cos_sq θ
    linarith
  obtain ⟨Q, U2, Q', U2', s2, c2, hev, hQ, hU2, hs2, hc2, hsc, hfin⟩ :=
    c19_refract nwt e sh m n0 l d (-Real.sin θ) θ clp he hm hmir hn0 hn (by ring) hc1
      (by rw [neg_sq]; exact htir) hR hhit _ hM _ _ _ _ hy hu hun
  refine ⟨Q, U2, Q', U2', s2, c2, ?_, hQ, hU2, hs2, hc2, hsc, ?_⟩
  · exact hev
  · have hpn : e.paraxN n0 l = m.index l := by simp [paraxN, index?, he, hm]
    have ha : e.tf.angles.x = θ ∧ e.tf.angles.z = 0 := by rw [hang]; exact ⟨rfl, rfl⟩
    simp only [Elem.propagateParaxial, Elem.paraxialMatrix, if_neg hn0.ne', he, hpn, ha.1, hM,
      Option.map_some, hdist, ha.2]
    rw [rotMat_zero_conj ((surfMat_decoupled hM).mul (transfer_decoupled d n0)), hfin, hb]

/-- C19 for a tilted mirror in air: the paraxial ray after it is the velocity of the real rays,
measured across the reflected chief ray `(0, -sin θ, -cos θ)`. -/
theorem c19_tilted_mirror (hd : 0 ≤ d) (hθ : ¬close θ 0)
    (ht : e.tf = Transform.update d ez ⟨θ, 0, 0⟩)
    (he : e.shape = some sh) (hm : e.mat = some m) (hmir : m.mirror = true)
    (hn : m.index l = 1) (hc1 : 0 < Real.cos θ) (hR : e.radius.Open)
    (hhit : NearHit nwt sh ⟨0, -Real.sin θ, Real.cos θ⟩ d) (hcur : sh.paraxCurv ≠ none)
    (Y U : ℝ → V3) (Y' U' : V3) (hY : HasD Y 0 Y') (hU : HasD U ez U')
    (hunit : ∀ᶠ t in 𝓝 0, (U t).norm = 1) :
    ∃ (Q U2 : ℝ → V3) (Q' U2' : V3),
      (∀ᶠ t in 𝓝 0, (step nwt l clp e ⟨some (Y t), some (U t), 1⟩).1.y = some (Q t) ∧
        (step nwt l clp e ⟨some (Y t), some (U t), 1⟩).1.u = some (U2 t) ∧
        (step nwt l clp e ⟨some (Y t), some (U t), 1⟩).1.n = 1) ∧
      HasD Q 0 Q' ∧ HasD U2 ⟨0, -Real.sin θ, -Real.cos θ⟩ U2' ∧
      e.propagateParaxial (axialState 1 Y' U') 1 l
        = some (beam 1 ⟨0, Real.cos θ, -Real.sin θ⟩ Q' U2', 1) := by
  obtain ⟨y', u', hy, hu, hun, hb⟩ := tilt_curve e 1 d θ hd hθ ht hY hU hunit
  obtain ⟨c, hc⟩ := Option.ne_none_iff_exists'.mp hcur
  have hdist : e.tf.distance = d := by rw [ht]; exact (tilt_rotation d θ hd hθ).2.2
  have hang : e.tf.angles = ⟨θ, 0, 0⟩ := by rw [ht]; exact Transform.update_angles _ _ _
  obtain ⟨Q, U2, Q', U2', hev, hQ, hU2, hfin, hM⟩ :=
    c19_mirror nwt e sh m 1 l d (-Real.sin θ) c θ clp he hm hmir one_pos (by ring) hc1 hR hhit hc
      _ _ _ _ hy hu hun
  refine ⟨Q, U2, Q', U2', ?_, hQ, hU2, ?_⟩
  · exact hev
  · have hpn : e.paraxN 1 l = 1 := by simp [paraxN, index?, he, hm, hn]
    have ha : e.tf.angles.x = θ ∧ e.tf.angles.z = 0 := by rw [hang]; exact ⟨rfl, rfl⟩
    rw [hn] at hM
    simp only [Elem.propagateParaxial, Elem.paraxialMatrix, if_neg one_ne_zero, he, hpn, ha.1, hM,
      Option.map_some, hdist, ha.2]
    rw [rotMat_zero_conj ((surfMat_decoupled hM).mul (transfer_decoupled d 1)), hfin, hb, one_mul]

end Tilt

/-! ### C21 for whole systems -/

/-- The index of the medium after an element: a refracting surface starts its own medium, anything
else leaves the medium as it is. -/
noncomputable def mediumAfter (l n : ℝ) (e : Elem) : ℝ :=
  match e.shape, e.mat with
  | some _, some m => if m.mirror then n else m.index l
  | _, _ => n

/-- Every mirror has as nominal index the index of the medium it stands in. -/
def MirrorsMatch (l : ℝ) : ℝ → List Elem → Prop
  | _, [] => True
  | n, e :: es => (∀ m, e.shape.isSome → e.mat = some m → m.mirror = true → m.index l = n) ∧
      MirrorsMatch l (mediumAfter l n e) es

theorem step_medium (nwt : NewtonFn) (l : ℝ) (clp : Bool) (e : Elem) (r : Ray) :
    (step nwt l clp e r).1.n = mediumAfter l r.n e ∧
    (step nwt l clp e r).2.n = mediumAfter l r.n e := by
  have : ∀ y u, (e.propagate nwt y u r.n l clp).n = mediumAfter l r.n e := by
    intro y u
    unfold Elem.propagate mediumAfter
    cases hs : e.shape with
    | none => rfl
    | some sh =>
      cases hm : e.mat with
      | none =>
        have : e.material.getD none = none := hm
        simp [this, getNMu]
      | some m =>
        have : e.material.getD none = some m := hm
        simp only [this, getNMu]
        split <;> simp_all
  exact ⟨this _ _, this _ _⟩

/-- C21, whole trace: the real and the paraxial trace record the same index at every element if and
only if every mirror's nominal index is the index of the medium in front of it. -/
theorem c21_system (nwt : NewtonFn) (l : ℝ) (clp : Bool) (es : List Elem) (r : Ray) (v : PVec)
    (out : List (PVec × ℝ))
    (h : scanM (fun e x => e.propagateParaxial x.1 x.2 l) es (v, r.n) = some out) :
    (∀ j : ℕ, ((rows nwt l clp es r)[j]?.map Row.n) = out[j]?.map Prod.snd) ↔
      MirrorsMatch l r.n es := by
  induction es generalizing r v out with
  | nil => simp [scanM] at h; subst h; simp [rows, MirrorsMatch]
  | cons e es ih =>
    simp only [scanM, Option.bind_eq_some_iff, Option.map_eq_some_iff] at h
    obtain ⟨⟨v', n'⟩, hp, out', ho, rfl⟩ := h
    have hn' : n' = e.paraxN r.n l := by
      unfold Elem.propagateParaxial at hp
      obtain ⟨nm, hnm, heq⟩ := Option.map_eq_some_iff.mp hp
      have : n' = nm.1 := by cases heq; rfl
      rw [this, paraxialMatrix_fst hnm]
    have hiff : mediumAfter l r.n e = n' ↔
        ∀ m, e.shape.isSome → e.mat = some m → m.mirror = true → m.index l = r.n := by
      rw [hn']
      unfold mediumAfter paraxN index?
      cases hs : e.shape with
      | none => simp
      | some sh =>
        cases hm : e.mat with
        | none => simp
        | some m =>
          by_cases hmir : m.mirror = true
          · simp only [hmir, if_true, Option.map_some, Option.getD_some, Option.isSome_some,
              Option.some.injEq, forall_const, forall_eq']
            exact eq_comm
          · simp [hmir]
    obtain ⟨hm1, hm2⟩ := step_medium nwt l clp e r
    have hsplit : (∀ j : ℕ, ((rows nwt l clp (e :: es) r)[j]?.map Row.n)
          = ((v', n') :: out')[j]?.map Prod.snd) ↔
        mediumAfter l r.n e = n' ∧
        ∀ j : ℕ, ((rows nwt l clp es (step nwt l clp e r).2)[j]?.map Row.n)
          = out'[j]?.map Prod.snd := by
      constructor
      · intro hj
        refine ⟨?_, fun j => ?_⟩
        · have := hj 0
          simpa [rows, hm1] using this
        · have := hj (j + 1)
          simpa [rows] using this
      · rintro ⟨h0, hj⟩ j
        cases j with
        | zero => simp [rows, hm1, h0]
        | succ j => simpa [rows] using hj j
    rw [hsplit, hiff, MirrorsMatch]
    constructor
    · rintro ⟨h0, hj⟩
      refine ⟨h0, ?_⟩
      have e1 := hiff.mpr h0
      rw [← hm2]
      exact (ih _ v' out' (by rw [hm2, e1]; exact ho)).mp hj
    · rintro ⟨h0, hj⟩
      refine ⟨h0, ?_⟩
      have e1 := hiff.mpr h0
      rw [← hm2] at hj
      exact (ih _ v' out' (by rw [hm2, e1]; exact ho)).mpr hj

/-! ### Examples -/

/-- A lens of index 3/2 with an ellipsoidal front and a plane back, a concave mirror behind it and
an image plane on the way back. -/
noncomputable def exFolded : List Elem :=
  [{ tf := Transform.update 10 ⟨0, 0, 1⟩ 0, radius := .fin 5,
     material := some (some ⟨false, true, fun _ => 3 / 2⟩),
     shape := some ⟨1 / 20, -1 / 2, none, false⟩ },
   { tf := Transform.update 2 ⟨0, 0, 1⟩ 0, radius := .fin 5,
     material := some (some ⟨false, false, fun _ => 1⟩), shape := some ⟨0, 0, none, false⟩ },
   { tf := Transform.update 30 ⟨0, 0, 1⟩ 0, radius := .inf,
     material := some (some ⟨true, false, fun _ => 1⟩), shape := some ⟨-1 / 50, -1 / 3, none, false⟩ },
   { tf := Transform.update 25 ⟨0, 0, -1⟩ 0, radius := .inf, material := none, shape := none }]

theorem good_conic {nwt : NewtonFn} {l n s d : ℝ} {R : Radius} {m : Material} {c k : ℝ}
    (hs : s = 1 ∨ s = -1) (hd : 0 ≤ d) (hn : 0 < n) (hR : R.Open) (hm : 0 < m.index l)
    (hmir : m.mirror = true → n = 1 ∧ m.index l = 1) (hk : c = 0 ∨ 1 + k ≠ 0) :
    Good nwt l n s { tf := Transform.update d ⟨0, 0, s⟩ 0, radius := R, material := some (some m),
                     shape := some ⟨c, k, none, false⟩ } := by
  refine Good.of (onAxis_update d s hd hs) hn hR ?_ ?_ ?_ ?_
  · intro sh h
    cases h
    exact conic_hit nwt _ 0 1 _ rfl (.inr rfl) (by norm_num) one_pos (by simpa using hk)
  · intro sh h; cases h; simp [paraxCurv]
  · intro m' h; cases h; exact hm
  · intro m' h; cases h; exact hmir

theorem exFolded_good (nwt : NewtonFn) : GoodFrom nwt 1 1 1 exFolded := by
  refine ⟨?_, ?_, ?_, ?_, trivial⟩
  · exact good_conic (.inl rfl) (by norm_num) one_pos (show (5 : ℝ) ≠ 0 by norm_num)
      (by norm_num) (by simp) (by norm_num)
  · have h1 : ∀ e : Elem, e.mat.any (·.mirror) = false → sideAfter 1 e = 1 := by
      intro e h; exact if_neg (by simp [h])
    rw [h1 _ (by simp [mat])]
    exact good_conic (.inl rfl) (by norm_num) (by norm_num [paraxN, index?, mat])
      (show (5 : ℝ) ≠ 0 by norm_num) (by norm_num) (by simp) (.inl rfl)
  · have h1 : ∀ e : Elem, e.mat.any (·.mirror) = false → sideAfter 1 e = 1 := by
      intro e h; exact if_neg (by simp [h])
    rw [h1 _ (by simp [mat]), h1 _ (by simp [mat])]
    exact good_conic (.inl rfl) (by norm_num) (by norm_num [paraxN, index?, mat])
      trivial (by norm_num) (by simp [paraxN, index?, mat]) (by norm_num)
  · have h1 : ∀ e : Elem, e.mat.any (·.mirror) = false → sideAfter 1 e = 1 := by
      intro e h; exact if_neg (by simp [h])
    rw [h1 _ (by simp [mat]), h1 _ (by simp [mat])]
    have h2 : ∀ e : Elem, e.shape.isSome → e.mat.any (·.mirror) = true → sideAfter 1 e = -1 := by
      intro e h h'; exact if_pos ⟨h, h'⟩
    rw [h2 _ (by simp) (by simp [mat])]
    exact Good.of (onAxis_update 25 (-1) (by norm_num) (.inr rfl)) (by norm_num [paraxN, index?, mat])
      trivial (by simp) (by simp) (by simp [mat]) (by simp [mat])

/-- A curve of unit rays through the axis. -/
theorem ex_near : Near 1 1 (fun t => ⟨some ⟨3 * t, 2 * t, 0⟩,
    some ⟨t * (3 / 5), t * (4 / 5), √(1 - t ^ 2)⟩, 1⟩)
    (axialState 1 ⟨3, 2, 0⟩ ⟨3 / 5, 4 / 5, 0⟩) := by
  refine ⟨_, _, _, _, .of_forall fun t => rfl, ⟨by ext <;> simp, ?_, ?_, ?_⟩,
    ⟨by ext <;> simp, ?_, ?_, ?_⟩, ?_, rfl⟩
  · simpa using (hasDerivAt_id (0 : ℝ)).const_mul 3
  · simpa using (hasDerivAt_id (0 : ℝ)).const_mul 2
  · exact hasDerivAt_const _ _
  · simpa using (hasDerivAt_id (0 : ℝ)).mul_const (3 / 5)
  · simpa using (hasDerivAt_id (0 : ℝ)).mul_const (4 / 5)
  · have h1 : HasDerivAt (fun t : ℝ => 1 - t ^ 2) 0 0 := by
      simpa using ((hasDerivAt_id (0 : ℝ)).pow 2).const_sub 1
    have := h1.sqrt (by norm_num)
    simpa using this
  · have hc : ContinuousAt (fun t : ℝ => t ^ 2) 0 := (continuous_pow 2).continuousAt
    have := hc.eventually_lt (continuousAt_const (y := (1 : ℝ))) (by norm_num)
    filter_upwards [this] with t ht
    apply norm_eq_one
    simp only [dot]
    rw [Real.mul_self_sqrt (by linarith)]
    ring

example (nwt : NewtonFn) := c19_system nwt 1 1 1 true exFolded _ _ (exFolded_good nwt).fine.fair ex_near

/-- The surfaces of `c19_tilted` and `c19_tilted_mirror`: a sphere met at 45 degrees. -/
example (nwt : NewtonFn) : AxialHit nwt ⟨1 / 30, 0, none, false⟩
      ⟨0, -Real.sin (Real.pi / 4), Real.cos (Real.pi / 4)⟩ 7 ∧
    0 < Real.cos (Real.pi / 4) ∧ ¬close (Real.pi / 4) 0 ∧
    (1 : ℝ) ^ 2 * Real.sin (Real.pi / 4) ^ 2 < (3 / 2) ^ 2 := by
  have h := Real.sin_sq_add_cos_sq (Real.pi / 4)
  have hc : 0 < Real.cos (Real.pi / 4) := by rw [Real.cos_pi_div_four]; positivity
  refine ⟨conic_hit nwt _ _ _ _ rfl (.inr rfl) (by rw [neg_sq]; exact h) hc
    (.inr (by norm_num)), hc, ?_, ?_⟩
  · simp only [close, sub_zero, abs_zero, mul_zero, add_zero, not_le]
    rw [abs_of_pos (by positivity)]
    have := Real.two_le_pi
    norm_num
    linarith
  · nlinarith [sq_nonneg (Real.cos (Real.pi / 4))]

/-- `MirrorsMatch` holds in air and fails for a mirror in glass. -/
example : MirrorsMatch 1 1 exFolded ∧
    ¬MirrorsMatch 1 (3 / 2) [flatMirror] := by
  constructor
  · simp [exFolded, MirrorsMatch, mediumAfter, mat]
  · simp only [MirrorsMatch, and_true, not_forall]
    exact ⟨mirrorMaterial, rfl, rfl, rfl, by norm_num [mirrorMaterial]⟩

end RayOpt
