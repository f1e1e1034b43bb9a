import Verif.Lemmas.ThirdOrder
import Verif.Props.FirstOrder

/-!
C67: the third-order coefficients of `ParaxialTrace.aberrations` are the third-order terms of the
real trace.
-/

namespace RayOpt

open V3 Shape Filter Topology Matrix Parax Sys Elem PTrace

/-- Specification: `r` is a curve of rays in index `n` which at parameter zero is the axis itself, in
direction `s`.  Its heights in the plane `z = 0` are `p1 t + p3 t³`, its slopes (per distance
travelled, times the index) are `u1 t + u3 t³`, up to errors small compared with `t³`. -/
def Near3 (s n : ℝ) (r : ℝ → Ray) (p1 p3 u1 u3 : Fin 2 → ℝ) : Prop :=
  ∃ (Y U : ℝ → V3) (Y' U' : V3), (∀ᶠ t in 𝓝 0, r t = ⟨some (Y t), some (U t), n⟩) ∧
    HasD Y 0 Y' ∧ HasD U ⟨0, 0, s⟩ U' ∧ (∀ᶠ t in 𝓝 0, (U t).norm = 1) ∧
    (∀ a, Odd3 (fun t => tr (Y t) a - (Y t).z * (tr (U t) a / (U t).z)) (p1 a) (p3 a)) ∧
    ∀ a, Odd3 (fun t => n * s * (tr (U t) a / (U t).z)) (u1 a) (u3 a)

/-- The sign of the transverse axes in the frame of an element on side `s`. -/
def flip2 (s : ℝ) : Fin 2 → ℝ := ![1, s]

theorem flip2_sq {s : ℝ} (hs : s = 1 ∨ s = -1) (a : Fin 2) : flip2 s a * flip2 s a = 1 := by
  rcases hs with rfl | rfl <;> fin_cases a <;> simp [flip2]

theorem tr_turn (s : ℝ) (v : V3) (a : Fin 2) : tr (v.turn s) a = flip2 s a * tr v a := by
  fin_cases a <;> simp [tr, V3.turn, flip2]

/-- The index after a surface, negative after a mirror (rayopt/elements.py 563-564). -/
noncomputable def signedIndex (e : Elem) (n l : ℝ) : ℝ :=
  match e.shape, e.mat with
  | some _, some m => if m.mirror then -n else m.index l
  | _, _ => n

/-- One element, to third order.  `C` and `K` are the paraxial curvature and the fourth-order
departure from the sphere; they do not matter where the index does not change. -/
theorem near3_step (nwt : NewtonFn) (l n s : ℝ) (clp : Bool) (e : Elem) (r : ℝ → Ray)
    (p1 p3 u1 u3 : Fin 2 → ℝ) (C K : ℝ) (hg : Fine nwt l n s e)
    (hfig : ∀ sh, e.shape = some sh → sh.figure = some (C, K))
    (hr : Near3 s n r p1 p3 u1 u3) :
    ∃ (q1 q3 w p3' u3' : Fin 2 → ℝ) (G2 : ℝ),
      q1 = (fun a => p1 a + e.tf.distance / n * u1 a) ∧
      q3 = (fun a => p3 a + e.tf.distance / n * u3 a) ∧
      w = (fun a => u1 a - (signedIndex e n l - n) * C * q1 a) ∧
      G2 = n / signedIndex e n l * (n / signedIndex e n l - 1)
          * (-C * dot2 u1 q1 / n - C ^ 2 * dot2 q1 q1)
        - ((n / signedIndex e n l) ^ 2 - 1) / 2 * (dot2 u1 u1 / n ^ 2 - C ^ 2 * dot2 q1 q1) ∧
      (∀ a, p3' a = q3 a + C / 2 * dot2 q1 q1 * (u1 a / n - w a / signedIndex e n l)) ∧
      (∀ a, u3' a = u3 a - (signedIndex e n l - n) * (C * (q3 a + C / 2 * dot2 q1 q1 * (u1 a / n))
          + (C ^ 3 / 2 + 4 * K) * dot2 q1 q1 * q1 a)
          + signedIndex e n l * G2 * (-C * q1 a - w a / signedIndex e n l)) ∧
      Near3 (sideAfter s e) (e.paraxN n l) (fun t => (step nwt l clp e (r t)).2) q1 p3' w u3' := by
  obtain ⟨Y, U, Y', U', hr, hY, hU, hunit, hP, hS⟩ := hr
  have hs := hg.axis.sign
  have hss : s * s = 1 := by rcases hs with h | h <;> rw [h] <;> norm_num
  have hs0 : s ≠ 0 := by rintro rfl; simp at hss
  have hn0 : n ≠ 0 := hg.pos.ne'
  set d := e.tf.distance with hd
  set ε := flip2 s with hε
  have hεε : ∀ a, ε a * ε a = 1 := flip2_sq hs
  -- first order
  have hnear : Near s n r (axialState n Y' U') := ⟨Y, U, Y', U', hr, hY, hU, hunit, rfl⟩
  obtain ⟨v', n', hpar, hnear'⟩ := near_step nwt l n s clp e r _ hg.toFair hnear
  have hn' : n' = e.paraxN n l := by
    unfold Elem.propagateParaxial at hpar
    obtain ⟨nm, hnm, heq⟩ := Option.map_eq_some_iff.mp hpar
    have : n' = nm.1 := by cases heq; rfl
    rw [this, paraxialMatrix_fst hnm]
  rw [hn'] at hnear'
  obtain ⟨Y2, U2n, Y2', U2n', hr2, hY2, hU2n, hunit2, -⟩ := hnear'
  -- the curve in the element's coordinates
  set Yl : ℝ → V3 := fun t => (Y t - e.tf.offset).turn s with hYldef
  set Ul : ℝ → V3 := fun t => (U t).turn s with hUldef
  have hzz : (⟨0, 0, s⟩ : V3).turn s = ⟨0, 0, 1⟩ := by ext <;> simp [V3.turn, hss]
  have hYl : HasD Yl (-(d • ⟨0, 0, 1⟩)) (Y'.turn s) := by
    have h0 : HasD (fun _ : ℝ => e.tf.offset) e.tf.offset 0 :=
      ⟨rfl, hasDerivAt_const _ _, hasDerivAt_const _ _, hasDerivAt_const _ _⟩
    refine ((hY.sub h0).turn s).congr ?_ ?_
    · rw [hg.axis.off]; ext <;> simp [V3.turn, ← hd]
      linear_combination d * hss
    · ext <;> simp [V3.turn]
  have hUl : HasD Ul ⟨0, 0, 1⟩ (U'.turn s) := (hU.turn s).congr hzz rfl
  have hunitl : ∀ᶠ t in 𝓝 0, (Ul t).norm = 1 := by
    filter_upwards [hunit] with t ht
    apply norm_eq_one
    have := dot_self_of_norm ht
    simp only [hUldef, dot, V3.turn] at this ⊢
    linear_combination this + ((U t).y * (U t).y + (U t).z * (U t).z) * hss
  have hUz : ∀ᶠ t in 𝓝 0, (U t).z ≠ 0 :=
    hU.contZ.eventually_ne (by rw [hU.at0]; exact hs0)
  have hstep : ∀ᶠ t in 𝓝 0, (step nwt l clp e (r t)).2 =
      ⟨(e.propagate nwt (some (Yl t)) (some (Ul t)) n l clp).y.map (V3.turn s),
       (e.propagate nwt (some (Yl t)) (some (Ul t)) n l clp).u.map (V3.turn s),
       (e.propagate nwt (some (Yl t)) (some (Ul t)) n l clp).n⟩ := by
    filter_upwards [hr] with t ht
    have hb : e.tf.fromNormal = V3.turn s := funext hg.axis.back
    simp only [step, ht, Option.map_some, hg.axis.into, hb, hYldef, hUldef]
  -- slopes and heights in the element's coordinates
  have hWl : ∀ a, Odd3 (fun t => tr (Ul t) a / (Ul t).z) (ε a * (u1 a / n)) (ε a * (u3 a / n)) := by
    intro a
    refine (((hS a).const_mul (ε a / n)).congr (by ring) (by ring)).of_eventuallyEq ?_
    filter_upwards [hUz] with t ht
    rw [hUldef]
    simp only [tr_turn]
    simp only [V3.turn, ← hε]
    field_simp
    linear_combination (ε a * tr (U t) a) * hss
  have hPl : ∀ (T : ℝ → ℝ) (a : Fin 2), Odd3 (fun t => tr (Yl t + T t • Ul t) a
      - (Yl t + T t • Ul t).z * (tr (Ul t) a / (Ul t).z))
      (ε a * (p1 a + d / n * u1 a)) (ε a * (p3 a + d / n * u3 a)) := by
    intro T a
    refine ((((hP a).add ((hS a).const_mul (d / n))).const_mul (ε a)).congr rfl
      rfl).of_eventuallyEq ?_
    filter_upwards [hUz] with t ht
    have e1 : tr (Yl t + T t • Ul t) a = ε a * (tr (Y t) a + T t * tr (U t) a) := by
      rw [hYldef, hUldef, hg.axis.off]
      fin_cases a <;> simp [tr, V3.turn, hε, flip2]; ring
    have e2 : (Yl t + T t • Ul t).z = s * (Y t).z - d + T t * (s * (U t).z) := by
      rw [hYldef, hUldef, hg.axis.off]
      simp [V3.turn, ← hd]
      linear_combination (-d) * hss
    rw [e1, e2, hUldef]
    simp only [tr_turn]
    simp only [V3.turn, ← hε]
    field_simp
    linear_combination (d * ε a * tr (U t) a) * hss
  -- collecting the result
  have finish : ∀ (Q U2 : ℝ → V3) (ν σ : ℝ) (x1 x3 w1 w3 : Fin 2 → ℝ), σ * σ = 1 →
      (∀ᶠ t in 𝓝 0,
        (e.propagate nwt (some (Yl t)) (some (Ul t)) n l clp).y = some (Q t) ∧
        (e.propagate nwt (some (Yl t)) (some (Ul t)) n l clp).u = some (U2 t)) →
      sideAfter s e = s * σ → ν = e.paraxN n l * σ →
      (∀ a, Odd3 (fun t => tr (Q t) a - (Q t).z * (tr (U2 t) a / (U2 t).z)) (x1 a) (x3 a)) →
      (∀ a, Odd3 (fun t => tr (U2 t) a / (U2 t).z) (w1 a) (w3 a)) →
      Near3 (sideAfter s e) (e.paraxN n l) (fun t => (step nwt l clp e (r t)).2)
        (fun a => ε a * x1 a) (fun a => ε a * x3 a) (fun a => ε a * (ν * w1 a))
        (fun a => ε a * (ν * w3 a)) := by
    intro Q U2 ν σ x1 x3 w1 w3 hσ hev hside hν hX hW
    refine ⟨Y2, U2n, Y2', U2n', hr2, hY2, hU2n, hunit2, ?_, ?_⟩
    all_goals
      have hev2 : ∀ᶠ t in 𝓝 0, Y2 t = (Q t).turn s ∧ U2n t = (U2 t).turn s := by
        filter_upwards [hstep, hev, hr2] with t h1 h2 h3
        rw [h1, h2.1, h2.2] at h3
        simp only [Option.map_some, Ray.mk.injEq, Option.some.injEq] at h3
        exact ⟨h3.1.symm, h3.2.1.symm⟩
      have hz2 : ∀ᶠ t in 𝓝 0, (U2 t).z ≠ 0 := by
        have h1 := hU2n.contZ.eventually_ne (y := 0) (by
          rw [hU2n.at0]; show sideAfter s e ≠ 0
          rw [hside]; exact mul_ne_zero hs0 (by rintro rfl; simp at hσ))
        filter_upwards [h1, hev2] with t h2 h3
        rw [h3.2] at h2
        intro h4
        apply h2
        simp [V3.turn, h4]
      intro a
    · refine ((hX a).const_mul (ε a)).of_eventuallyEq ?_
      filter_upwards [hev2, hz2] with t h1 h2
      rw [h1.1, h1.2]
      simp only [tr_turn]
      simp only [V3.turn, ← hε]
      field_simp
    · refine (((hW a).const_mul (ε a * ν)).congr (by ring) (by ring)).of_eventuallyEq ?_
      filter_upwards [hev2, hz2] with t h1 h2
      rw [h1.2, hside, hν]
      simp only [tr_turn]
      simp only [V3.turn, ← hε]
      field_simp
  have hdot : ∀ f g : Fin 2 → ℝ, dot2 (fun a => ε a * f a) (fun a => ε a * g a) = dot2 f g := by
    intro f g
    unfold dot2
    linear_combination (f 0 * g 0) * hεε 0 + (f 1 * g 1) * hεε 1
  refine ⟨_, _, _, _, _, _, rfl, rfl, rfl, rfl, fun a => rfl, fun a => rfl, ?_⟩
  set q1 : Fin 2 → ℝ := fun a => p1 a + d / n * u1 a with hq1
  set q3 : Fin 2 → ℝ := fun a => p3 a + d / n * u3 a with hq3
  -- no change of index
  have dummy : ∀ (T : ℝ → ℝ), (∀ᶠ t in 𝓝 0,
        (e.propagate nwt (some (Yl t)) (some (Ul t)) n l clp).y = some (Yl t + T t • Ul t) ∧
        (e.propagate nwt (some (Yl t)) (some (Ul t)) n l clp).u = some (Ul t)) →
      sideAfter s e = s → e.paraxN n l = n →
      Near3 (sideAfter s e) (e.paraxN n l) (fun t => (step nwt l clp e (r t)).2) q1 q3 u1 u3 := by
    intro T hev h1 h2
    have := finish (fun t => Yl t + T t • Ul t) Ul n 1 _ _ _ _ (by norm_num) hev (by rw [h1, mul_one])
      (by rw [h2, mul_one]) (hPl T) hWl
    have e1 : ∀ (f : Fin 2 → ℝ), (fun a => ε a * (ε a * f a)) = f := by
      intro f; funext a; linear_combination f a * hεε a
    have e2 : ∀ (f : Fin 2 → ℝ), (fun a => ε a * (n * (ε a * (f a / n)))) = f := by
      intro f; funext a; field_simp; linear_combination f a * hεε a
    rw [e1 q1, e1 q3, e2 u1, e2 u3] at this
    exact this
  cases hsh : e.shape with
  | none =>
    have hσ : signedIndex e n l = n := by simp [signedIndex, hsh]
    obtain ⟨T, T', hT, hTd, hT0, -⟩ := plane_hit hYl hUl (by norm_num)
    have hin := inside_limit hg.opening (hit_curve hYl hUl hTd hT0)
    have := dummy T ?_ (by simp [sideAfter, hsh]) (by simp [paraxN, index?, hsh])
    · convert this using 2
      all_goals (try funext a); simp only [hσ, div_self hn0]; ring
    · filter_upwards [hT, hin] with t h1 h2
      have hclip : (if clp then Elem.clip e.radius (some (Yl t + T t • Ul t)) (some (Ul t))
          else some (Ul t)) = some (Ul t) := by
        cases clp <;> simp [Elem.clip, h2]
      simp only [Elem.propagate, hsh, Elem.intercept, Option.bind_some, h1, Option.map_some, hclip]
      exact ⟨trivial, trivial⟩
  | some sh =>
    obtain ⟨T, T', F, hT, hTd, hT0, hsag, hF⟩ := hg.close sh hsh Yl Ul _ _ hYl hUl hunitl
    have hQ := hit_curve hYl hUl hTd hT0
    have hin := inside_limit hg.opening hQ
    cases hm : e.mat with
    | none =>
      have hσ : signedIndex e n l = n := by simp [signedIndex, hsh, hm]
      have := dummy T ?_ (by simp [sideAfter, hm]) (by simp [paraxN, index?, hsh, hm])
      · convert this using 2
        all_goals (try funext a); simp only [hσ, div_self hn0]; ring
      · filter_upwards [hT, hin] with t h1 h2
        obtain ⟨p1, p2, p3⟩ := propagate_surface nwt e sh hsh (Yl t) (Ul t) _ n l (T t) clp h1 rfl h2
        refine ⟨p1, ?_⟩
        rw [p3, hm]; simp [Elem.getNMu, Elem.refract]
    | some m =>
      have hidx := hg.index m hm
      obtain ⟨c, hc⟩ := Option.ne_none_iff_exists'.mp (hg.curv sh hsh)
      have hfs := hfig sh hsh
      have hcC : sh.paraxCurv = some C := by
        unfold paraxCurv at hc ⊢
        unfold figure at hfs
        rcases ha : sh.aspherics with _ | _ | ⟨a, _ | ⟨b, l⟩⟩ <;> simp_all
      -- both kinds of surface
      have surface : ∀ (ν mu σ : ℝ), ν ≠ 0 → mu = n / ν →
          ((0 < mu ∧ σ = 1) ∨ (mu = -1 ∧ σ = -1)) → sideAfter s e = s * σ →
          ν = e.paraxN n l * σ → signedIndex e n l = ν → (Elem.getNMu e.mat n l).2 = mu →
          Near3 (sideAfter s e) (e.paraxN n l) (fun t => (step nwt l clp e (r t)).2) q1
            (fun a => q3 a + C / 2 * dot2 q1 q1 * (u1 a / n - (u1 a - (ν - n) * C * q1 a) / ν))
            (fun a => u1 a - (ν - n) * C * q1 a)
            (fun a => u3 a - (ν - n) * (C * (q3 a + C / 2 * dot2 q1 q1 * (u1 a / n))
                + (C ^ 3 / 2 + 4 * K) * dot2 q1 q1 * q1 a)
              + ν * (n / ν * (n / ν - 1) * (-C * dot2 u1 q1 / n - C ^ 2 * dot2 q1 q1)
                - ((n / ν) ^ 2 - 1) / 2 * (dot2 u1 u1 / n ^ 2 - C ^ 2 * dot2 q1 q1))
                * (-C * q1 a - (u1 a - (ν - n) * C * q1 a) / ν)) := by
        intro ν mu σ hν hmu hcase hside hνn hsi hget
        obtain ⟨U2, G2, hG2, hU2, hW2, hX2⟩ := third_local hfs hcC hcase hQ hUl hunitl hsag hF (hPl T) hWl
        have hev : ∀ᶠ t in 𝓝 0,
            (e.propagate nwt (some (Yl t)) (some (Ul t)) n l clp).y = some (Yl t + T t • Ul t) ∧
            (e.propagate nwt (some (Yl t)) (some (Ul t)) n l clp).u = some (U2 t) := by
          filter_upwards [hT, hin, hU2] with t h1 h2 h3
          obtain ⟨R, h4, h5⟩ := h3
          obtain ⟨p1, p2, p3⟩ := propagate_surface nwt e sh hsh (Yl t) (Ul t) _ n l (T t) clp h1 rfl h2
          refine ⟨p1, ?_⟩
          rw [p3, hget, if_neg (by rcases hcase with ⟨h, -⟩ | ⟨h, -⟩ <;> [exact h.ne'; (rw [h]; norm_num)])]
          simp only [Elem.refract, Option.bind_some, h4, h5]
          by_cases hm1 : mu = 1
          · rw [if_pos hm1]
            rw [hm1] at h5
            simpa [refractAt] using h5
          · rw [if_neg hm1]
        have hσσ : σ * σ = 1 := by rcases hcase with ⟨_, rfl⟩ | ⟨_, rfl⟩ <;> norm_num
        have := finish _ U2 ν σ _ _ _ _ hσσ hev hside hνn hX2 hW2
        have hd1 := hdot (fun a => u1 a / n) q1
        have hd2 := hdot q1 q1
        have hd3 := hdot (fun a => u1 a / n) (fun a => u1 a / n)
        have hd1' : dot2 (fun a => u1 a / n) q1 = dot2 u1 q1 / n := by unfold dot2; ring
        have hd3' : dot2 (fun a => u1 a / n) (fun a => u1 a / n) = dot2 u1 u1 / n ^ 2 := by
          unfold dot2; ring
        rw [hd1'] at hd1
        rw [hd3'] at hd3
        rw [hd1, hd2, hd3] at hG2
        rw [hd2] at this
        have f1 : (fun a => ε a * (ε a * q1 a)) = q1 := by
          funext a; linear_combination q1 a * hεε a
        have hwa : ∀ a, mu * (ε a * (u1 a / n)) - (1 - mu) * C * (ε a * q1 a)
            = ε a * ((u1 a - (ν - n) * C * q1 a) / ν) := by
          intro a; rw [hmu]; field_simp
        convert this using 1
        · exact f1.symm
        · funext a
          rw [show ε a * (ε a * (p3 a + d / n * u3 a) + C / 2 * dot2 q1 q1 * (ε a * (u1 a / n)
              - (mu * (ε a * (u1 a / n)) - (1 - mu) * C * (ε a * (p1 a + d / n * u1 a)))))
            = ε a * ε a * (q3 a + C / 2 * dot2 q1 q1 * (u1 a / n - (u1 a - (ν - n) * C * q1 a) / ν)) by
              have := hwa a
              simp only [hq1] at this
              rw [this]; simp only [hq3, hq1]; ring, hεε, one_mul]
        · funext a
          rw [show ε a * (ν * (mu * (ε a * (u1 a / n)) - (1 - mu) * C * (ε a * (p1 a + d / n * u1 a))))
            = ε a * ε a * (ν * ((u1 a - (ν - n) * C * q1 a) / ν)) by
              have := hwa a
              simp only [hq1] at this
              rw [this]; ring, hεε, one_mul]
          field_simp
        · funext a
          have hw := hwa a
          simp only [hq1] at hw
          rw [hw, hG2, hmu]
          have hk := hεε a
          have : ∀ X : ℝ, X = ε a * ε a * X := fun X => by rw [hk, one_mul]
          rw [this (u3 a - _ + _)]
          simp only [hq1, hq3]
          field_simp
          ring
      have hsi : signedIndex e n l = if m.mirror then -n else m.index l := by
        simp [signedIndex, hsh, hm]
      have hpn : e.paraxN n l = m.index l := by simp [paraxN, index?, hsh, hm]
      by_cases hmir : m.mirror = true
      · obtain ⟨h1, h2⟩ := hg.air m hm hmir
        rw [hmir, if_pos rfl] at hsi
        have := surface (-n) (-1) (-1) (neg_ne_zero.mpr hn0) (by rw [div_neg, div_self hn0])
          (.inr ⟨rfl, rfl⟩) (by simp [sideAfter, hsh, hm, hmir]) (by rw [hpn, h1, h2]; ring) hsi
          (by simp [Elem.getNMu, hm, hmir])
        rw [hsi]
        exact this
      · have hmir' : m.mirror = false := by simpa using hmir
        simp only [hmir', Bool.false_eq_true, if_false] at hsi
        have := surface (m.index l) (n / m.index l) 1 hidx.ne' rfl
          (.inl ⟨div_pos hg.pos hidx, rfl⟩) (by simp [sideAfter, hm, hmir']) (by rw [hpn, mul_one]) hsi
          (by simp [Elem.getNMu, hm, hmir'])
        rw [hsi]
        exact this

/-- Specification: what the five monochromatic coefficients stand for.  A ray with relative pupil
coordinates `ρ` and relative field coordinates `τ` is displaced by this much, in units of the image
height: spherical aberration, coma, astigmatism, field curvature and distortion. -/
def Seidel.blur (c : Seidel) (ρ τ : Fin 2 → ℝ) (a : Fin 2) : ℝ :=
  c.tsc * dot2 ρ ρ * ρ a + c.cc * (2 * dot2 ρ τ * ρ a + dot2 ρ ρ * τ a) + 2 * c.tac * dot2 ρ τ * τ a
    + (c.tac + c.tpc) * dot2 τ τ * ρ a + c.dc * dot2 τ τ * τ a

/-- The polynomial identity behind the Seidel sums, in the variables of one surface. -/
theorem kick_poly (C K m y0 y1 w0 w1 R M T r t : ℝ) {D uq uu q u x0 x1 x i0 i1 G l : ℝ}
    (hD : D = R * y0 ^ 2 + 2 * M * (y0 * y1) + T * y1 ^ 2)
    (huq : uq = R * (y0 * w0) + M * (y0 * w1 + y1 * w0) + T * (y1 * w1))
    (huu : uu = R * w0 ^ 2 + 2 * M * (w0 * w1) + T * w1 ^ 2)
    (hq : q = r * y0 + t * y1) (hu : u = r * w0 + t * w1)
    (hx0 : x0 = m * w0 - (1 - m) * C * y0) (hx1 : x1 = m * w1 - (1 - m) * C * y1)
    (hx : x = r * x0 + t * x1) (hi0 : i0 = C * y0 + w0) (hi1 : i1 = C * y1 + w1)
    (hl : l = m * (w0 * y1 - w1 * y0))
    (hG : G = m * (m - 1) * (-C * uq - C ^ 2 * D) - (m ^ 2 - 1) / 2 * (uu - C ^ 2 * D)) :
    C / 2 * D * (u - x) * x0
        - y0 * (-(1 - m) * (C * (C / 2 * D * u) + (C ^ 3 / 2 + 4 * K) * D * q) + G * (-C * q - x))
      = (1 / 2 * y0 * m * (1 - m) * (i0 + x0) * i0 ^ 2 + 4 * K * (1 - m) * y0 ^ 4) * (R * r)
      + (1 / 2 * y0 * m * (1 - m) * (i0 + x0) * i0 * i1 + 4 * K * (1 - m) * y0 ^ 3 * y1)
        * (2 * M * r + R * t)
      + (1 / 2 * y0 * m * (1 - m) * (i0 + x0) * i1 ^ 2 + 4 * K * (1 - m) * y0 ^ 2 * y1 ^ 2)
        * (2 * M * t + T * r)
      + ((1 - m) * C * (w0 * y1 - w1 * y0) * l / 2) * (T * r)
      + (1 / 2 * y1 * m * (1 - m) * (i1 + x1) * i0 * i1 + 1 / 2 * (x1 ^ 2 - w1 ^ 2) * l
        + 4 * K * (1 - m) * y0 * y1 ^ 3) * (T * t) := by
  subst hD huq huu hq hu hx hx0 hx1 hi0 hi1 hl hG
  ring

/-- What the coefficients of one surface do to the quantity `p3 u - u3 y` of a ray. -/
theorem kick_surface {e : Elem} {sh : Shape} {y u0 u : Fin 2 → ℝ} {n0 n v0 v ν C K : ℝ} {c : Seidel}
    (hc : e.aberration y u0 u n0 n v0 v = some c) (hsh : e.shape = some sh)
    (hfig : sh.figure = some (C, K)) (hν : ν = if e.mat.any (·.mirror) then -n else n)
    (hu : ∀ k, u k = u0 k - (ν - n0) * C * y k) (ρ τ q1 q3 u1 u3 w p3' u3' : Fin 2 → ℝ) (G2 : ℝ)
    (hq1 : ∀ a, q1 a = ρ a * y 0 + τ a * y 1) (hu1 : ∀ a, u1 a = ρ a * u0 0 + τ a * u0 1)
    (hw : ∀ a, w a = u1 a - (ν - n0) * C * q1 a)
    (hG : G2 = n0 / ν * (n0 / ν - 1) * (-C * dot2 u1 q1 / n0 - C ^ 2 * dot2 q1 q1)
        - ((n0 / ν) ^ 2 - 1) / 2 * (dot2 u1 u1 / n0 ^ 2 - C ^ 2 * dot2 q1 q1))
    (hp : ∀ a, p3' a = q3 a + C / 2 * dot2 q1 q1 * (u1 a / n0 - w a / ν))
    (hu3 : ∀ a, u3' a = u3 a - (ν - n0) * (C * (q3 a + C / 2 * dot2 q1 q1 * (u1 a / n0))
          + (C ^ 3 / 2 + 4 * K) * dot2 q1 q1 * q1 a) + ν * G2 * (-C * q1 a - w a / ν)) (a : Fin 2) :
    p3' a * u 0 - u3' a * y 0 = q3 a * u0 0 - u3 a * y 0
      + (u0 0 * y 1 - u0 1 * y 0) * c.blur ρ τ a := by
  unfold Elem.aberration at hc
  simp only [hsh, hfig, Option.bind_some, ← hν] at hc
  split at hc
  · cases hc
  · rename_i hne
    push Not at hne
    obtain ⟨hn0, hν0, hl⟩ := hne
    cases hc
    have hL : u 0 * y 1 - u 1 * y 0 = u0 0 * y 1 - u0 1 * y 0 := by rw [hu 0, hu 1]; ring
    rw [hL] at hl ⊢
    set L := u0 0 * y 1 - u0 1 * y 0 with hLd
    obtain ⟨m, hm⟩ : ∃ m, m = n0 / ν := ⟨_, rfl⟩
    have hm0 : m ≠ 0 := by rw [hm]; exact div_ne_zero hn0 hν0
    have hnm : n0 = m * ν := by rw [hm]; field_simp
    obtain ⟨w0, hw0⟩ : ∃ w0, u0 0 = n0 * w0 := ⟨u0 0 / n0, by field_simp⟩
    obtain ⟨w1, hw1⟩ : ∃ w1, u0 1 = n0 * w1 := ⟨u0 1 / n0, by field_simp⟩
    have hx0 : u 0 = ν * (m * w0 - (1 - m) * C * y 0) := by rw [hu, hw0, hnm]; ring
    have hx1 : u 1 = ν * (m * w1 - (1 - m) * C * y 1) := by rw [hu, hw1, hnm]; ring
    have key := kick_poly C K m (y 0) (y 1) w0 w1 (dot2 ρ ρ) (dot2 ρ τ) (dot2 τ τ) (ρ a) (τ a)
      (D := dot2 q1 q1) (uq := dot2 u1 q1 / n0) (uu := dot2 u1 u1 / n0 ^ 2) (q := q1 a)
      (u := u1 a / n0) (x := w a / ν) (G := G2) (l := L / ν)
      (by simp only [dot2, hq1]; ring)
      (by simp only [dot2, hq1, hu1, hw0, hw1]; field_simp; ring)
      (by simp only [dot2, hu1, hw0, hw1]; field_simp; ring)
      (hq1 a) (by rw [hu1, hw0, hw1]; field_simp) rfl rfl
      (by rw [hw, hu1, hq1, hw0, hw1, hnm]; field_simp; ring) rfl rfl
      (by rw [hLd, hw0, hw1, hnm]; field_simp)
      (by rw [hG, hm]; ring)
    have e1 : p3' a * u 0 - u3' a * y 0 - (q3 a * u0 0 - u3 a * y 0) = ν * (
        C / 2 * dot2 q1 q1 * (u1 a / n0 - w a / ν) * (m * w0 - (1 - m) * C * y 0)
        - y 0 * (-(1 - m) * (C * (C / 2 * dot2 q1 q1 * (u1 a / n0))
          + (C ^ 3 / 2 + 4 * K) * dot2 q1 q1 * q1 a) + G2 * (-C * q1 a - w a / ν))) := by
      rw [hp, hu3, hx0, hw0, hnm]
      ring
    rw [key] at e1
    rw [← sub_eq_iff_eq_add', e1]
    have hmu : n0 / ν = m := hm.symm
    have d0 : u0 0 / n0 = w0 := by rw [hw0]; field_simp
    have d1 : u0 1 / n0 = w1 := by rw [hw1]; field_simp
    have d2 : u 0 / ν = m * w0 - (1 - m) * C * y 0 := by rw [hx0]; field_simp
    have d3 : u 1 / ν = m * w1 - (1 - m) * C * y 1 := by rw [hx1]; field_simp
    have d4 : u 1 ^ 2 / ν ^ 2 = (m * w1 - (1 - m) * C * y 1) ^ 2 := by rw [← div_pow, d3]
    have d5 : u0 1 ^ 2 / n0 ^ 2 = w1 ^ 2 := by rw [← div_pow, d1]
    have hLw : L / n0 = w0 * y 1 - w1 * y 0 := by rw [hLd, hw0, hw1]; field_simp
    simp only [Seidel.blur, hmu, d0, d1, d2, d3, d4, d5]
    rw [← hLw, hnm]
    field_simp
    ring

/-- One step of the paraxial trace: transfer to the element and refraction there. -/
def ParaxStep (l : ℝ) (e : Elem) (a b : PRow) : Prop :=
  b.n = e.paraxN a.n l ∧ ∃ P, uprightPower e a.n l = some P ∧
    ∀ k, b.y k = a.y k + e.tf.distance / a.n * a.u k ∧ b.u k = a.u k + P * b.y k

/-- The invariant of `third_system` across one element. -/
theorem kick_step {nwt : NewtonFn} {l l1 l2 n s v0 : ℝ} {clp : Bool} {e : Elem} {r : ℝ → Ray}
    {a b : PRow} {c : Seidel} {ρ τ p1 p3 u1 u3 : Fin 2 → ℝ} (hg : Fine nwt l n s e)
    (hs : ParaxStep l e a b) (hn : a.n = n)
    (hc : e.aberration b.y a.u b.u a.n b.n v0 (e.dispersion l1 l2) = some c)
    (hp1 : ∀ i, p1 i = ρ i * a.y 0 + τ i * a.y 1) (hu1 : ∀ i, u1 i = ρ i * a.u 0 + τ i * a.u 1)
    (hr : Near3 s n r p1 p3 u1 u3) :
    ∃ q1 q3 w1 w3 : Fin 2 → ℝ,
      Near3 (sideAfter s e) b.n (fun t => (step nwt l clp e (r t)).2) q1 q3 w1 w3 ∧
      (∀ i, q1 i = ρ i * b.y 0 + τ i * b.y 1) ∧ (∀ i, w1 i = ρ i * b.u 0 + τ i * b.u 1) ∧
      lagrange b = lagrange a ∧
      ∀ i, q3 i * b.u 0 - w3 i * b.y 0
        = p3 i * a.u 0 - u3 i * a.y 0 + lagrange a * c.blur ρ τ i := by
  obtain ⟨hbn, P, hP, hk⟩ := hs
  have hn0 : n ≠ 0 := hg.pos.ne'
  have hfig : ∃ C K, ∀ sh, e.shape = some sh → sh.figure = some (C, K) := by
    cases hsh : e.shape with
    | none => exact ⟨0, 0, by simp⟩
    | some sh =>
      unfold Elem.aberration at hc
      simp only [hsh, Option.bind_eq_some_iff] at hc
      obtain ⟨ck, h, -⟩ := hc
      exact ⟨ck.1, ck.2, fun sh' h' => by cases h'; exact h⟩
  obtain ⟨C, K, hfig⟩ := hfig
  obtain ⟨q1, q3, w, p3', u3', G2, hq1, hq3, hw, hG, hp3, hu3, hnear⟩ :=
    near3_step nwt l n s clp e r p1 p3 u1 u3 C K hg hfig hr
  -- the power of the trace is that of the expansion
  have hpow : e.shape = none ∧ P = 0 ∨ P = -(signedIndex e n l - n) * C := by
    unfold uprightPower at hP
    cases hsh : e.shape with
    | none => rw [hsh] at hP; cases hP; exact .inl ⟨rfl, rfl⟩
    | some sh =>
      right
      have hcC : sh.paraxCurv = some C := by
        have hc1 := hg.curv sh hsh
        have hfs := hfig sh hsh
        unfold paraxCurv at hc1 ⊢
        unfold figure at hfs
        rcases ha : sh.aspherics with _ | _ | ⟨a, _ | ⟨b, l⟩⟩ <;> simp_all
      simp only [hsh, hcC, Option.map_some, Option.some.injEq] at hP
      rw [← hP]
      cases hm : e.mat with
      | none => simp [signedIndex, hsh, hm]
      | some m =>
        simp only [signedIndex, hsh, hm]
        by_cases hmir : m.mirror = true
        · obtain ⟨h1, h2⟩ := hg.air m hm hmir
          rw [if_pos hmir, if_pos hmir, h1]; ring
        · rw [if_neg hmir, if_neg hmir, hn]; ring
  have hbu : ∀ k, b.u k = a.u k + P * b.y k := fun k => (hk k).2
  have hby : ∀ k, b.y k = a.y k + e.tf.distance / n * a.u k := fun k => by rw [← hn]; exact (hk k).1
  have hq1' : ∀ i, q1 i = ρ i * b.y 0 + τ i * b.y 1 := by
    intro i; rw [hq1, hby, hby]; simp only [hp1, hu1]; ring
  have hlag : b.u 0 * b.y 1 - b.u 1 * b.y 0 = lagrange a := by
    unfold PTrace.lagrange
    rw [hbu, hbu, hby, hby]; ring
  have htr : ∀ i, q3 i * a.u 0 - u3 i * b.y 0 = p3 i * a.u 0 - u3 i * a.y 0 := by
    intro i; rw [hq3, hby]; ring
  have hlag' : a.u 0 * b.y 1 - a.u 1 * b.y 0 = lagrange a := by
    unfold PTrace.lagrange; rw [hby, hby]; ring
  have hsi : e.shape = none → signedIndex e n l = n := fun h => by simp [signedIndex, h]
  refine ⟨q1, p3', w, u3', by rw [hbn, hn]; exact hnear, hq1', ?_, ?_, ?_⟩
  · intro i
    rw [hw, hbu, hbu]
    simp only [hq1', hu1]
    rcases hpow with ⟨h1, h2⟩ | h1
    · rw [hsi h1, h2]; ring
    · rw [h1]; ring
  · rw [← hlag]; unfold PTrace.lagrange; rfl
  · intro i
    cases hsh : e.shape with
    | none =>
      have h1 := hsi hsh
      have h2 : P = 0 := by
        rcases hpow with ⟨_, h⟩ | h
        · exact h
        · rw [h, h1]; ring
      unfold Elem.aberration at hc
      simp only [hsh, Option.some.injEq] at hc
      rw [← hc, hp3, hu3, hG, h1, hbu, h2, div_self hn0, hw, h1]
      rw [← htr i]
      simp [Seidel.blur]
    | some sh =>
      have h1 : P = -(signedIndex e n l - n) * C := by
        rcases hpow with ⟨h, _⟩ | h
        · rw [hsh] at h; cases h
        · exact h
      have hν : signedIndex e n l = if e.mat.any (·.mirror) then -b.n else b.n := by
        rw [hbn, hn]
        cases hm : e.mat with
        | none => simp [signedIndex, hsh, hm, paraxN, index?]
        | some m =>
          by_cases hmir : m.mirror = true
          · obtain ⟨h2, h3⟩ := hg.air m hm hmir
            simp [signedIndex, hsh, hm, paraxN, index?, hmir, h2, h3]
          · simp [signedIndex, hsh, hm, paraxN, index?, hmir]
      rw [hn] at hc
      have := kick_surface (ν := signedIndex e n l) hc hsh (hfig sh hsh) hν
        (fun k => by rw [hbu, h1]; ring) ρ τ q1 q3 u1 u3 w p3' u3' G2 hq1' hu1
        (fun i => by rw [hw]) hG hp3 hu3 i
      rw [this, htr, hlag']

/-- The real trace to third order, after every element. -/
theorem third_system {nwt : NewtonFn} {l l1 l2 : ℝ} {clp : Bool} {ρ τ : Fin 2 → ℝ} (es : List Elem) :
    ∀ {n s v0 : ℝ} {r : ℝ → Ray} {a : PRow} {rows' : List PRow} {cs : List Seidel}
      {p1 p3 u1 u3 : Fin 2 → ℝ}, FineFrom nwt l n s es → a.n = n → rows'.length = es.length →
    (∀ j e x y, es[j]? = some e → (a :: rows')[j]? = some x → (a :: rows')[j + 1]? = some y →
      ParaxStep l e x y) →
    aberrationsFrom l1 l2 es a rows' v0 = some cs →
    (∀ i, p1 i = ρ i * a.y 0 + τ i * a.y 1) → (∀ i, u1 i = ρ i * a.u 0 + τ i * a.u 1) →
    Near3 s n r p1 p3 u1 u3 →
    cs.length = es.length ∧
    ∀ (j : ℕ) (e : Elem) (b : PRow), es[j]? = some e → rows'[j]? = some b →
      ∃ (row : ℝ → Row) (q1 q3 w1 w3 : Fin 2 → ℝ),
        (∀ t, (rows nwt l clp es (r t))[j]? = some (row t)) ∧
        Near3 (sideAt s es (j + 1)) b.n (fun t => rayOfRow e (row t)) q1 q3 w1 w3 ∧
        (∀ i, q1 i = ρ i * b.y 0 + τ i * b.y 1) ∧ (∀ i, w1 i = ρ i * b.u 0 + τ i * b.u 1) ∧
        lagrange b = lagrange a ∧
        ∀ i, q3 i * b.u 0 - w3 i * b.y 0 = p3 i * a.u 0 - u3 i * a.y 0
          + lagrange a * ((cs.take (j + 1)).map fun c => c.blur ρ τ i).sum := by
  induction es with
  | nil =>
    intro n s v0 r a rows' cs p1 p3 u1 u3 _ _ _ _ hab _ _ _
    simp only [aberrationsFrom, Option.some.injEq] at hab
    exact ⟨by simp [← hab], fun j e b h => by simp at h⟩
  | cons e es ih =>
    intro n s v0 r a rows' cs p1 p3 u1 u3 hg hn hlen hstep hab hp1 hu1 hr
    match rows', hlen with
    | b :: rows', hlen =>
    simp only [aberrationsFrom, Option.bind_eq_some_iff, Option.map_eq_some_iff] at hab
    obtain ⟨c, hc, cs', hcs', rfl⟩ := hab
    have h0 := hstep 0 e a b rfl rfl rfl
    obtain ⟨q1, q3, w1, w3, hnear, hq1, hw1, hlag, hkick⟩ :=
      kick_step (clp := clp) hg.1 h0 hn hc hp1 hu1 hr
    have hbn : b.n = e.paraxN n l := by rw [h0.1, hn]
    obtain ⟨hl, hj⟩ := ih (hbn ▸ hg.2) rfl (by simpa using hlen)
      (fun j e' x y he hx hy => hstep (j + 1) e' x y (by simpa using he) (by simpa using hx)
        (by simpa using hy)) hcs' hq1 hw1 hnear
    refine ⟨by simp [hl], ?_⟩
    intro j e' b' he hb
    cases j with
    | zero =>
      simp only [List.getElem?_cons_zero, Option.some.injEq] at he hb
      subst he; subst hb
      refine ⟨fun t => (step nwt l clp e (r t)).1, q1, q3, w1, w3, fun t => rfl, ?_, hq1, hw1, hlag, ?_⟩
      · simp only [sideAt]; exact hnear
      · intro i; rw [hkick i]; simp
    | succ j =>
      simp only [List.getElem?_cons_succ] at he hb
      obtain ⟨row, x1, x3, z1, z3, g1, g2, g3, g4, g5, g6⟩ := hj j e' b' he hb
      refine ⟨row, x1, x3, z1, z3, fun t => by simp only [rows, List.getElem?_cons_succ, g1 t], g2, g3, g4,
        by rw [g5, hlag], ?_⟩
      intro i
      rw [g6 i, hkick i, hlag, List.take_succ_cons, List.map_cons, List.sum_cons]
      ring

theorem FineFrom.good {nwt : NewtonFn} {l : ℝ} {es : List Elem} : ∀ {n s : ℝ},
    FineFrom nwt l n s es → ∀ e ∈ es, ∃ n' s', Fine nwt l n' s' e := by
  induction es with
  | nil => intro _ _ _ e he; simp at he
  | cons e es ih =>
    intro n s hg e' he
    rcases List.mem_cons.mp he with rfl | he
    · exact ⟨n, s, hg.1⟩
    · exact ih hg.2 e' he

theorem FineFrom.angles {nwt : NewtonFn} {l : ℝ} {es : List Elem} {n s : ℝ}
    (hg : FineFrom nwt l n s es) (e : Elem) (he : e ∈ es) : e.tf.angles = 0 := by
  obtain ⟨n', s', h⟩ := hg.good e he
  exact h.axis.ang

/-- Every row comes from its element. -/
theorem rows_from_step {nwt : NewtonFn} {l : ℝ} {clp : Bool} {es : List Elem} : ∀ {r : Ray} {j : ℕ}
    {e : Elem} {row : Row}, es[j]? = some e → (rows nwt l clp es r)[j]? = some row →
    ∃ r', row = (step nwt l clp e r').1 := by
  induction es with
  | nil => intro r j e row he; simp at he
  | cons e es ih =>
    intro r j e' row he hrow
    cases j with
    | zero =>
      simp only [rows, List.getElem?_cons_zero, Option.some.injEq] at he hrow
      exact ⟨r, by rw [← hrow, ← he]⟩
    | succ j =>
      simp only [rows, List.getElem?_cons_succ] at he hrow
      exact ih he hrow

/-- The positions at a plain `Element` are in its plane. -/
theorem step_bare_plane {nwt : NewtonFn} {l : ℝ} {clp : Bool} {e : Elem} {r : Ray} {q : V3}
    (he : e.shape = none) (hq : (step nwt l clp e r).1.y = some q) : q.z = 0 := by
  simp only [step, Elem.propagate] at hq
  cases hy : r.y with
  | none => simp [hy, he] at hq
  | some y =>
    cases hu : r.u with
    | none => simp [hu, he] at hq
    | some u =>
      simp only [hy, hu, Option.map_some, Option.bind_some, Elem.intercept, he, interceptPlane] at hq
      split at hq
      · simp at hq
      · rename_i hz
        simp only [Option.map_some, Option.some.injEq] at hq
        rw [← hq]
        simp only [add_z, smul_z]
        field_simp
        ring

theorem sideAt_cons (s : ℝ) (e : Elem) (es : List Elem) (j : ℕ) :
    sideAt s (e :: es) (j + 1) = sideAt (sideAfter s e) es j := rfl

/-- Every step of a paraxial trace through elements on the axis. -/
theorem parax_steps {nwt : NewtonFn} {l s : ℝ} {obj : Elem} {es : List Elem} {axis : Fin 2} {r0 : PRow}
    {rows' : List PRow} (hg : FineFrom nwt l r0.n s es)
    (ht : PTrace.trace (obj :: es) axis l r0 = some (r0 :: rows')) :
    ∀ (j : ℕ) (e : Elem) (x y : PRow), es[j]? = some e → (r0 :: rows')[j]? = some x →
      (r0 :: rows')[j + 1]? = some y → ParaxStep l e x y := by
  set obj' : Elem := ⟨obj.tf, obj.radius, none, none⟩ with hobj
  have ht' : PTrace.trace (obj' :: es) axis l r0 = some (r0 :: rows') := by
    unfold PTrace.trace PTrace.rowsFrom Sys.propagateParaxial at ht ⊢
    rw [pySlice_one] at ht ⊢
    exact ht
  have hroll : NoRoll (obj' :: es) := by
    intro e he hs
    rcases List.mem_cons.mp he with rfl | he
    · simp [hobj] at hs
    · rw [hg.angles e he]; simp
  have key : ∀ (j : ℕ) (x : PRow), (r0 :: rows')[j]? = some x → ∃ s', FineFrom nwt l x.n s' (es.drop j) ∧
      ∀ e y, es[j]? = some e → (r0 :: rows')[j + 1]? = some y → ParaxStep l e x y := by
    intro j
    have hstep : ∀ (j : ℕ) (s' : ℝ) (x : PRow), (r0 :: rows')[j]? = some x →
        FineFrom nwt l x.n s' (es.drop j) → ∀ e y, es[j]? = some e →
        (r0 :: rows')[j + 1]? = some y → ParaxStep l e x y := by
      intro j s' x hx hgx e y he hy
      have hj : j < es.length := (List.getElem?_eq_some_iff.mp he).1
      rw [List.drop_eq_getElem_cons hj, (List.getElem?_eq_some_iff.mp he).2] at hgx
      have hup : Upright e x.n l := ⟨hgx.1.axis.ang, fun m hm _ =>
        div_pos (hgx.1.index m hm) hgx.1.pos⟩
      obtain ⟨_, h1, h2⟩ := rows_step_upright hroll ht' (j := j) (by simpa using he) hx hy hup
      exact ⟨h1, h2⟩
    induction j with
    | zero =>
      intro x hx
      simp only [List.getElem?_cons_zero, Option.some.injEq] at hx
      subst hx
      exact ⟨s, by simpa using hg, hstep 0 s _ rfl (by simpa using hg)⟩
    | succ j ih =>
      intro y hy
      obtain ⟨x, hx⟩ : ∃ x, (r0 :: rows')[j]? = some x := by
        have := (List.getElem?_eq_some_iff.mp hy).1
        exact ⟨_, List.getElem?_eq_getElem (by omega)⟩
      obtain ⟨s', hgx, hst⟩ := ih x hx
      have : ∃ s2, FineFrom nwt l y.n s2 (es.drop (j + 1)) := by
        by_cases hj : j < es.length
        · have h1 := hst es[j] y (List.getElem?_eq_getElem hj) hy
          rw [List.drop_eq_getElem_cons hj] at hgx
          exact ⟨_, h1.1 ▸ hgx.2⟩
        · rw [List.drop_eq_nil_of_le (by omega)]
          exact ⟨s', trivial⟩
      obtain ⟨s2, hg2⟩ := this
      exact ⟨s2, hg2, hstep (j + 1) s2 y hy hg2⟩
  intro j e x y he hx hy
  exact (key j x hx).choose_spec.2 e y he hy

/-- A third-order error vanishes at the start if the object is a point: on the object plane for a
finite object (`y = 0` for the marginal ray), of one direction for an infinite one (`u = 0`). -/
def PointObject (r0 : PRow) (p3 u3 : Fin 2 → ℝ) : Prop :=
  (r0.y 0 = 0 ∧ ∀ i, p3 i = 0) ∨ (r0.u 0 = 0 ∧ ∀ i, u3 i = 0)

/-- Specification: what the coefficients of the elements up to number `j` add up to. -/
noncomputable def blurSum (c : List Seidel) (ρ τ : Fin 2 → ℝ) (j : ℕ) (i : Fin 2) : ℝ :=
  ((c.take (j + 1)).map fun s => s.blur ρ τ i).sum

/-- C67, one equation after every element: the real ray with pupil and field coordinates `ρ`, `τ`
has third-order height `q3` and slope `w3` with `q3 u - w3 y = q u - w y + L·Σ`, where `y`, `u`
belong to the marginal ray of the trace, `L` is the Lagrange invariant, and `Σ` adds up the
coefficients of the elements passed. -/
theorem c67_third_order {nwt : NewtonFn} {l s : ℝ} {clp : Bool} {obj : Elem} {es : List Elem}
    {axis : Fin 2} {ws : List ℝ} {r0 : PRow} {prows : List PRow} {c : List Seidel} {r : ℝ → Ray}
    {ρ τ p3 u3 : Fin 2 → ℝ} (hg : FineFrom nwt l r0.n s es)
    (ht : PTrace.trace (obj :: es) axis l r0 = some prows)
    (hc : PTrace.aberrations (obj :: es) ws prows = some c)
    (hr : Near3 s r0.n r (fun i => ρ i * r0.y 0 + τ i * r0.y 1) p3
      (fun i => ρ i * r0.u 0 + τ i * r0.u 1) u3) :
    c.length = es.length + 1 ∧ prows.length = es.length + 1 ∧
    ∀ (j : ℕ) (e : Elem) (b : PRow), es[j]? = some e → prows[j + 1]? = some b →
      ∃ (row : ℝ → Row) (q3 w3 : Fin 2 → ℝ),
        (∀ t, (rows nwt l clp es (r t))[j]? = some (row t)) ∧
        Near3 (sideAt s es (j + 1)) b.n (fun t => rayOfRow e (row t))
          (fun i => ρ i * b.y 0 + τ i * b.y 1) q3 (fun i => ρ i * b.u 0 + τ i * b.u 1) w3 ∧
        PTrace.lagrange b = PTrace.lagrange r0 ∧
        ∀ i, q3 i * b.u 0 - w3 i * b.y 0 = p3 i * r0.u 0 - u3 i * r0.y 0
          + PTrace.lagrange r0 * blurSum c ρ τ (j + 1) i := by
  obtain ⟨m, cc, _, _, hl1, hl2, hrows⟩ := trace_columns ht
  set rows' := List.zipWith (PTrace.row axis) m cc
  subst hrows
  have hlen : rows'.length = es.length := by
    simp [rows', hl1, hl2]
  simp only [PTrace.aberrations, Option.bind_eq_some_iff, Option.map_eq_some_iff, List.tail_cons] at hc
  obtain ⟨l1, _, l2, _, cs, hcs, rfl⟩ := hc
  obtain ⟨h1, h2⟩ := third_system (clp := clp) (ρ := ρ) (τ := τ) es hg rfl hlen (parax_steps hg ht) hcs
    (fun _ => rfl) (fun _ => rfl) hr
  refine ⟨by simp [h1], by simp [hlen], ?_⟩
  intro j e b he hb
  obtain ⟨row, q1, q3, w1, w3, g1, g2, g3, g4, g5, g6⟩ := h2 j e b he (by simpa using hb)
  refine ⟨row, q3, w3, g1, ?_, g5, ?_⟩
  · rw [funext g3, funext g4] at g2; exact g2
  · intro i
    rw [g6 i]
    simp [blurSum, Seidel.blur]

/-- C67, the image: where the marginal ray of the trace crosses the axis, the real rays of an object
point meet the plane of that element at the paraxial image point, plus `t³` times the image height
times the sum of the coefficients, up to terms small compared with `t³`. -/
theorem c67_image {nwt : NewtonFn} {l s : ℝ} {clp : Bool} {obj : Elem} {es : List Elem}
    {axis : Fin 2} {ws : List ℝ} {r0 : PRow} {prows : List PRow} {c : List Seidel} {r : ℝ → Ray}
    {ρ τ p3 u3 : Fin 2 → ℝ} (hg : FineFrom nwt l r0.n s es)
    (ht : PTrace.trace (obj :: es) axis l r0 = some prows)
    (hc : PTrace.aberrations (obj :: es) ws prows = some c)
    (hr : Near3 s r0.n r (fun i => ρ i * r0.y 0 + τ i * r0.y 1) p3
      (fun i => ρ i * r0.u 0 + τ i * r0.u 1) u3) (hobj : PointObject r0 p3 u3)
    (hL : PTrace.lagrange r0 ≠ 0) {j : ℕ} {e : Elem} {b : PRow} (he : es[j]? = some e)
    (hb : prows[j + 1]? = some b) (himg : b.y 0 = 0) :
    ∃ (row : ℝ → Row) (w1 w3 : Fin 2 → ℝ),
      (∀ t, (rows nwt l clp es (r t))[j]? = some (row t)) ∧
      Near3 (sideAt s es (j + 1)) b.n (fun t => rayOfRow e (row t)) (fun i => τ i * b.y 1)
        (fun i => b.y 1 * blurSum c ρ τ (j + 1) i) w1 w3 := by
  obtain ⟨_, _, h⟩ := c67_third_order (clp := clp) hg ht hc hr
  obtain ⟨row, q3, w3, h1, h2, h3, h4⟩ := h j e b he hb
  refine ⟨row, fun i => ρ i * b.u 0 + τ i * b.u 1, w3, h1, ?_⟩
  have hL' : PTrace.lagrange r0 = b.u 0 * b.y 1 := by
    rw [← h3]; unfold PTrace.lagrange; rw [himg]; ring
  have hu : b.u 0 ≠ 0 := by
    intro h0; rw [h0, zero_mul] at hL'; exact hL hL'
  have hq : q3 = fun i => b.y 1 * blurSum c ρ τ (j + 1) i := by
    funext i
    have h5 := h4 i
    have h6 : p3 i * r0.u 0 - u3 i * r0.y 0 = 0 := by
      rcases hobj with ⟨h, h'⟩ | ⟨h, h'⟩ <;> rw [h, h'] <;> ring
    rw [himg, h6, hL'] at h5
    exact mul_right_cancel₀ hu (by linear_combination h5)
  rw [← hq]
  simpa only [himg, mul_zero, zero_add] using h2

/-- At a plain `Element` the positions of the rows are in its plane, so `c67_image` is about the
positions themselves. -/
theorem c67_image_plane {nwt : NewtonFn} {l s : ℝ} {clp : Bool} {obj : Elem} {es : List Elem}
    {axis : Fin 2} {ws : List ℝ} {r0 : PRow} {prows : List PRow} {c : List Seidel} {r : ℝ → Ray}
    {ρ τ p3 u3 : Fin 2 → ℝ} (hg : FineFrom nwt l r0.n s es)
    (ht : PTrace.trace (obj :: es) axis l r0 = some prows)
    (hc : PTrace.aberrations (obj :: es) ws prows = some c)
    (hr : Near3 s r0.n r (fun i => ρ i * r0.y 0 + τ i * r0.y 1) p3
      (fun i => ρ i * r0.u 0 + τ i * r0.u 1) u3) (hobj : PointObject r0 p3 u3)
    (hL : PTrace.lagrange r0 ≠ 0) {j : ℕ} {e : Elem} {b : PRow} (he : es[j]? = some e)
    (hb : prows[j + 1]? = some b) (himg : b.y 0 = 0) (hplane : e.shape = none) :
    ∃ Y : ℝ → V3,
      (∀ᶠ t in 𝓝 0, ∃ row, (rows nwt l clp es (r t))[j]? = some row ∧
        (rayOfRow e row).y = some (Y t)) ∧
      ∀ i, Odd3 (fun t => tr (Y t) i) (τ i * b.y 1) (b.y 1 * blurSum c ρ τ (j + 1) i) := by
  obtain ⟨row, w1, w3, h1, Y, U, Y', U', h2, h3, h4, h5, h6, h7⟩ :=
    c67_image (clp := clp) hg ht hc hr hobj hL he hb himg
  refine ⟨Y, ?_, ?_⟩
  · filter_upwards [h2] with t ht
    exact ⟨row t, h1 t, by rw [ht]⟩
  · intro i
    refine (h6 i).of_eventuallyEq ?_
    filter_upwards [h2] with t ht
    have hz : (Y t).z = 0 := by
      obtain ⟨n', s', hgood⟩ := hg.good e (List.mem_of_getElem? he)
      obtain ⟨r', hr'⟩ := rows_from_step he (h1 t)
      have h8 : (rayOfRow e (row t)).y = some (Y t) := by rw [ht]
      simp only [rayOfRow, Option.map_eq_some_iff] at h8
      obtain ⟨q, hq, hYq⟩ := h8
      rw [hr'] at hq
      rw [← hYq, hgood.axis.back]
      simp [V3.turn, step_bare_plane hplane hq]
    rw [hz]; ring

/-- C67, `transverse3`: the reported transverse coefficients add up to the third-order image error if
the image is upright; they have the opposite sign if it is inverted. -/
theorem c67_transverse {c T : List Seidel} {prows : List PRow} {b : PRow}
    (hT : PTrace.transverse3 c prows = some T) (hb : prows.getLast? = some b) (ρ τ : Fin 2 → ℝ)
    (j : ℕ) (i : Fin 2) :
    (0 ≤ b.y 1 → b.y 1 * blurSum c ρ τ j i = blurSum T ρ τ j i) ∧
    (b.y 1 ≤ 0 → b.y 1 * blurSum c ρ τ j i = -blurSum T ρ τ j i) := by
  unfold PTrace.transverse3 at hT
  rw [hb] at hT
  simp only [Option.map_some, Option.some.injEq] at hT
  have key : blurSum T ρ τ j i = |b.y 1| * blurSum c ρ τ j i := by
    rw [← hT]
    unfold blurSum
    rw [← List.map_take, List.map_map]
    generalize c.take (j + 1) = c'
    induction c' with
    | nil => simp
    | cons x xs ih =>
      simp only [List.map_cons, List.sum_cons, mul_add]
      rw [ih]
      simp only [Function.comp, Seidel.blur]
      ring
  rw [key]
  constructor <;> intro h
  · rw [abs_of_nonneg h]
  · rw [abs_of_nonpos h]; ring

/-- C67, `transverse3`: the surfaces keep their order, and the colour terms (axial and lateral) are scaled
like the others. -/
theorem c67_transverse_colour {c T : List Seidel} {prows : List PRow} {b : PRow}
    (hT : PTrace.transverse3 c prows = some T) (hb : prows.getLast? = some b) :
    T.length = c.length ∧ ∀ (j : ℕ) (x y : Seidel), c[j]? = some x → T[j]? = some y →
      y.tachc ^ 2 = (b.y 1 * x.tachc) ^ 2 ∧ 0 ≤ y.tachc * x.tachc ∧
      y.tchc ^ 2 = (b.y 1 * x.tchc) ^ 2 ∧ 0 ≤ y.tchc * x.tchc := by
  unfold PTrace.transverse3 at hT
  rw [hb] at hT
  simp only [Option.map_some, Option.some.injEq] at hT
  subst hT
  refine ⟨by simp, fun j x y hx hy => ?_⟩
  rw [List.getElem?_map, hx, Option.map_some, Option.some.injEq] at hy
  subst hy
  have h := sq_abs (b.y 1)
  have h0 := abs_nonneg (b.y 1)
  refine ⟨?_, ?_, ?_, ?_⟩
  · linear_combination x.tachc ^ 2 * h
  · nlinarith [mul_nonneg h0 (mul_self_nonneg x.tachc)]
  · linear_combination x.tchc ^ 2 * h
  · nlinarith [mul_nonneg h0 (mul_self_nonneg x.tchc)]

end RayOpt
