import Verif.Props.SeidelForms

/-!
C67, continued: stop shifts of a whole trace, concrete systems, and what the code gets wrong.
-/

namespace RayOpt

open V3 Shape Filter Topology Matrix Parax Sys Elem PTrace

/-- Specification: the stop-shift formulas, for a chief ray moved by `Q` times the marginal ray. -/
structure StopShift (Q : ℝ) (c c' : Seidel) : Prop where
  tsc : c'.tsc = c.tsc
  cc : c'.cc = c.cc + Q * c.tsc
  tac : c'.tac = c.tac + 2 * Q * c.cc + Q ^ 2 * c.tsc
  tpc : c'.tpc = c.tpc
  dc : c'.dc = c.dc + Q * (3 * c.tac + c.tpc) + 3 * Q ^ 2 * c.cc + Q ^ 3 * c.tsc
  tachc : c'.tachc = c.tachc
  tchc : c'.tchc = c.tchc + Q * c.tachc

/-- Specification: the second row has the same marginal ray, and its chief ray is moved by `Q` times
the marginal ray. -/
structure ChiefMoved (Q : ℝ) (a a' : PRow) : Prop where
  n : a'.n = a.n
  y0 : a'.y 0 = a.y 0
  y1 : a'.y 1 = a.y 1 + Q * a.y 0
  u0 : a'.u 0 = a.u 0
  u1 : a'.u 1 = a.u 1 + Q * a.u 0

/-- One step of the trace in the form `c67_stop_shift` needs. -/
theorem refraction_form {nwt : NewtonFn} {l n s : ℝ} {e : Elem} {a b : PRow} (hg : Fine nwt l n s e)
    (hs : ParaxStep l e a b) (hn : a.n = n) (sh : Shape) (C K : ℝ) (hsh : e.shape = some sh)
    (hfig : sh.figure = some (C, K)) (k : Fin 2) :
    b.u k = a.u k - ((if e.mat.any (·.mirror) then -b.n else b.n) - a.n) * C * b.y k := by
  obtain ⟨hbn, P, hP, hk⟩ := hs
  have hcC : sh.paraxCurv = some C := by
    have hc1 := hg.curv sh hsh
    clear hk hP hbn
    unfold paraxCurv at hc1 ⊢
    unfold figure at hfig
    rcases hasp : sh.aspherics with _ | _ | ⟨x, _ | ⟨y, l⟩⟩ <;> simp_all
  have hPC : P = -((if e.mat.any (·.mirror) then -b.n else b.n) - a.n) * C := by
    unfold uprightPower at hP
    simp only [hsh, hcC, Option.map_some, Option.some.injEq] at hP
    rw [← hP, hbn, hn]
    cases hmat : e.mat with
    | none => simp [paraxN, index?, hsh, hmat]
    | some m =>
      by_cases hmir : m.mirror = true
      · obtain ⟨h1, h2⟩ := hg.air m hmat hmir
        simp [paraxN, index?, hsh, hmat, hmir, h1, h2]
        exact .inl (by ring)
      · simp [paraxN, index?, hsh, hmat, hmir]
        ring
  rw [(hk k).2, hPC]
  ring

theorem shift_system {nwt : NewtonFn} {l l1 l2 Q : ℝ} (es : List Elem) :
    ∀ {n s v : ℝ} {a a' : PRow} {rows rows' : List PRow} {cs cs' : List Seidel},
    FineFrom nwt l n s es → a.n = n → ChiefMoved Q a a' →
    (∀ j e x y, es[j]? = some e → (a :: rows)[j]? = some x → (a :: rows)[j + 1]? = some y →
      ParaxStep l e x y) →
    (∀ j e x y, es[j]? = some e → (a' :: rows')[j]? = some x → (a' :: rows')[j + 1]? = some y →
      ParaxStep l e x y) →
    rows.length = es.length → rows'.length = es.length →
    aberrationsFrom l1 l2 es a rows v = some cs → aberrationsFrom l1 l2 es a' rows' v = some cs' →
    List.Forall₂ (StopShift Q) cs cs' := by
  induction es with
  | nil =>
    intro n s v a a' rows rows' cs cs' _ _ _ _ _ _ _ h h'
    simp only [aberrationsFrom, Option.some.injEq] at h h'
    rw [← h, ← h']
    exact .nil
  | cons e es ih =>
    intro n s v a a' rows rows' cs cs' hg hn hm hst hst' hlen hlen' h h'
    match rows, rows', hlen, hlen' with
    | b :: rows, b' :: rows', hlen, hlen' =>
    simp only [aberrationsFrom, Option.bind_eq_some_iff, Option.map_eq_some_iff] at h h'
    obtain ⟨c, hc, cs, hcs, rfl⟩ := h
    obtain ⟨c', hc', cs', hcs', rfl⟩ := h'
    have s1 := hst 0 e a b rfl rfl rfl
    have s2 := hst' 0 e a' b' rfl rfl rfl
    obtain ⟨n1, P, hP, hk⟩ := s1
    obtain ⟨n2, P', hP', hk'⟩ := s2
    rw [hm.n, hP] at hP'
    cases hP'
    rw [hm.n] at hk' n2
    have y0 : b'.y 0 = b.y 0 := by rw [(hk 0).1, (hk' 0).1, hm.y0, hm.u0]
    have y1 : b'.y 1 = b.y 1 + Q * b.y 0 := by
      rw [(hk 0).1, (hk 1).1, (hk' 1).1, hm.y1, hm.u1]; ring
    have u0 : b'.u 0 = b.u 0 := by rw [(hk 0).2, (hk' 0).2, y0, hm.u0]
    have u1 : b'.u 1 = b.u 1 + Q * b.u 0 := by
      rw [(hk 0).2, (hk 1).2, (hk' 1).2, y1, hm.u1]; ring
    have hm' : ChiefMoved Q b b' := ⟨by rw [n1, n2], y0, y1, u0, u1⟩
    have hbn : b.n = e.paraxN n l := by rw [n1, hn]
    refine .cons ?_ (ih (hbn ▸ hg.2) rfl hm'
      (fun j e x y h1 h2 h3 => hst (j + 1) e x y (by simpa using h1) (by simpa using h2) (by simpa using h3))
      (fun j e x y h1 h2 h3 => hst' (j + 1) e x y (by simpa using h1) (by simpa using h2)
        (by simpa using h3)) (by simpa using hlen) (by simpa using hlen') hcs hcs')
    rw [hm.n, hm'.n] at hc'
    obtain ⟨e1, e2, e3, e4, e5, e6, e7⟩ := c67_stop_shift (Q := Q) hc hc' (refraction_form hg.1 ⟨n1, P, hP, hk⟩ hn) y0 y1 hm.u0 hm.u1 u0 u1
    exact ⟨e1, e2, e3, e4, e5, e6, e7⟩

/-- C67, stop shift: two traces of one system with the same marginal ray, whose chief rays differ at
the start by `Q` times the marginal ray, have coefficients related by the stop-shift formulas at
every element. -/
theorem c67_stop_shift_trace {nwt : NewtonFn} {l s Q : ℝ} {obj : Elem} {es : List Elem} {axis : Fin 2}
    {ws : List ℝ} {r0 r0' : PRow} {prows prows' : List PRow} {c c' : List Seidel}
    (hg : FineFrom nwt l r0.n s es) (hm : ChiefMoved Q r0 r0')
    (ht : PTrace.trace (obj :: es) axis l r0 = some prows)
    (ht' : PTrace.trace (obj :: es) axis l r0' = some prows')
    (hc : PTrace.aberrations (obj :: es) ws prows = some c)
    (hc' : PTrace.aberrations (obj :: es) ws prows' = some c') :
    List.Forall₂ (StopShift Q) c c' := by
  obtain ⟨m, cc, _, _, hl1, hl2, hrows⟩ := trace_columns ht
  obtain ⟨m', cc', _, _, hl1', hl2', hrows'⟩ := trace_columns ht'
  subst hrows
  subst hrows'
  simp only [PTrace.aberrations, Option.bind_eq_some_iff, Option.map_eq_some_iff, List.tail_cons] at hc hc'
  obtain ⟨l1, hw1, l2, hw2, cs, hcs, rfl⟩ := hc
  obtain ⟨l1', hw1', l2', hw2', cs', hcs', rfl⟩ := hc'
  rw [hw1] at hw1'; cases hw1'
  rw [hw2] at hw2'; cases hw2'
  simp at hl1 hl2 hl1' hl2'
  refine .cons ⟨rfl, by simp, by simp, rfl, by simp, rfl, by simp⟩
    (shift_system es hg rfl hm (parax_steps hg ht) (parax_steps (by rw [hm.n]; exact hg) ht')
      (by simp [hl1, hl2]) (by simp [hl1', hl2']) hcs hcs')

/-- C67, aplanatic and concentric surfaces: a surface without fourth-order departure at which the
marginal ray is normal, or has equal image and object conjugates in the sense of the aplanatic
condition `i + u' = 0`, has no spherical aberration and no coma; in the aplanatic case it has no
astigmatism either. -/
theorem c67_aplanatic {e : Elem} {sh : Shape} {y u0 u : Fin 2 → ℝ} {n0 n v0 v ν C : ℝ} {c : Seidel}
    (hc : e.aberration y u0 u n0 n v0 v = some c) (hsh : e.shape = some sh)
    (hfig : sh.figure = some (C, 0)) (hν : ν = if e.mat.any (·.mirror) then -n else n) :
    (C * y 0 + u0 0 / n0 = 0 → c.tsc = 0 ∧ c.cc = 0) ∧
    (C * y 0 + u0 0 / n0 + u 0 / ν = 0 → c.tsc = 0 ∧ c.cc = 0 ∧ c.tac = 0) := by
  unfold Elem.aberration at hc
  simp only [hsh, hfig, Option.bind_some, ← hν] at hc
  split at hc
  · cases hc
  · cases hc
    constructor
    · intro h
      simp [h]
    · intro h
      simp [h]

/-- C67 does not hold for a list of exactly one aspheric coefficient: `aberration` raises, though the
paraxial trace works. -/
theorem c67_one_coefficient_violation (c k a : ℝ) (t : Transform) (R : Radius) (m : Material)
    (y u0 u : Fin 2 → ℝ) (n0 n v0 v : ℝ) :
    (⟨c, k, some [a], false⟩ : Shape).paraxCurv = some (c + 2 * a) ∧
    Elem.aberration ⟨t, R, some ⟨c, k, some [a], false⟩, some (some m)⟩ y u0 u n0 n v0 v = none := by
  constructor
  · simp [paraxCurv]
  · simp [Elem.aberration, figure]

/-- Good systems have a paraxial trace. -/
theorem good_trace {nwt : NewtonFn} {l s : ℝ} {es : List Elem} {r0 : PRow} (hs : s = 1 ∨ s = -1)
    (hg : FineFrom nwt l r0.n s es) (obj : Elem) (axis : Fin 2) :
    ∃ prows, PTrace.trace (obj :: es) axis l r0 = some (r0 :: prows) ∧ prows.length = es.length := by
  have hnear : Near s r0.n (fun _ => ⟨some 0, some ⟨0, 0, s⟩, r0.n⟩) (axialState r0.n 0 0) :=
    ⟨fun _ => 0, fun _ => ⟨0, 0, s⟩, 0, 0, .of_forall fun _ => rfl,
      ⟨rfl, hasDerivAt_const _ _, hasDerivAt_const _ _, hasDerivAt_const _ _⟩,
      ⟨rfl, hasDerivAt_const _ _, hasDerivAt_const _ _, hasDerivAt_const _ _⟩,
      .of_forall fun _ => norm_eq_one (by rcases hs with rfl | rfl <;> simp [dot]), rfl⟩
  obtain ⟨out, ho, -⟩ := c19_system nwt l r0.n s false es _ _ hg.fair hnear
  obtain ⟨m, hm, _⟩ := scan_pair l es r0.n _ (column r0 0) out ho
  obtain ⟨c, hc, _⟩ := scan_pair l es r0.n _ (column r0 1) out ho
  refine ⟨List.zipWith (PTrace.row axis) m c, ?_, ?_⟩
  · unfold PTrace.trace rowsFrom Sys.propagateParaxial
    rw [pySlice_one, List.tail_cons, hm, hc]
    rfl
  · rw [List.length_zipWith, scanM_length _ _ _ _ hm, scanM_length _ _ _ _ hc, min_self]

/-- Real rays for every choice of pupil and field coordinates: straight lines from points in the
plane `z = 0`, with heights and slopes proportional to `t`. -/
theorem near3_start (n : ℝ) (hn : 0 < n) (p u : Fin 2 → ℝ) :
    Near3 1 n (fun t => ⟨some ⟨p 0 * t, p 1 * t, 0⟩,
      some ((√(1 + (u 0 / n * t) ^ 2 + (u 1 / n * t) ^ 2))⁻¹ • ⟨u 0 / n * t, u 1 / n * t, 1⟩), n⟩)
      p 0 u 0 := by
  set a := u 0 / n with ha
  set b := u 1 / n with hb
  have hpos : ∀ t : ℝ, 0 < 1 + (a * t) ^ 2 + (b * t) ^ 2 := fun t => by positivity
  have hw : HasDerivAt (fun t : ℝ => (√(1 + (a * t) ^ 2 + (b * t) ^ 2))⁻¹) 0 0 := by
    have h0 : ∀ x : ℝ, HasDerivAt (fun t : ℝ => (x * t) ^ 2) 0 0 := by
      intro x
      refine ((((hasDerivAt_id (0 : ℝ)).const_mul x).pow 2).congr_deriv ?_).congr_of_eventuallyEq ?_
      · simp
      · exact .of_forall fun t => by simp
    have h1 := ((h0 a).const_add 1).add (h0 b)
    have h2 := (h1.sqrt (by simp)).inv (by simp)
    refine h2.congr_deriv ?_
    simp
  have hlin : ∀ x : ℝ, HasDerivAt (fun t : ℝ => x * t) x 0 := fun x => by
    simpa using (hasDerivAt_id (0 : ℝ)).const_mul x
  have hodd : ∀ x : ℝ, Odd3 (fun t => x * t) x 0 := by
    intro x
    refine (Asymptotics.isLittleO_zero _ _).congr_left fun t => ?_
    ring
  refine ⟨fun t => ⟨p 0 * t, p 1 * t, 0⟩, fun t => (√(1 + (a * t) ^ 2 + (b * t) ^ 2))⁻¹ • ⟨a * t, b * t, 1⟩,
    ⟨p 0, p 1, 0⟩, ⟨a, b, 0⟩, .of_forall fun _ => rfl, ⟨by ext <;> simp, hlin _, hlin _, hasDerivAt_const _ _⟩,
    ⟨by ext <;> simp, ?_, ?_, ?_⟩, .of_forall fun t => ?_, fun i => ?_, fun i => ?_⟩
  · refine ((hw.mul (hlin a)).congr_deriv (by simp)).congr_of_eventuallyEq (.of_forall fun t => by simp)
  · refine ((hw.mul (hlin b)).congr_deriv (by simp)).congr_of_eventuallyEq (.of_forall fun t => by simp)
  · simpa using hw
  · apply norm_eq_one
    have h := Real.mul_self_sqrt (hpos t).le
    have h' : √(1 + (a * t) ^ 2 + (b * t) ^ 2) ≠ 0 := (Real.sqrt_pos.mpr (hpos t)).ne'
    simp only [dot, smul_x, smul_y, smul_z]
    generalize √(1 + (a * t) ^ 2 + (b * t) ^ 2) = w at h h'
    field_simp
    linear_combination -h
  · refine (hodd (p i)).of_eventuallyEq (.of_forall fun t => ?_)
    fin_cases i <;> simp [tr]
  · refine (hodd (u i)).of_eventuallyEq (.of_forall fun t => ?_)
    have h' : √(1 + (a * t) ^ 2 + (b * t) ^ 2) ≠ 0 := (Real.sqrt_pos.mpr (hpos t)).ne'
    fin_cases i
    · simp only [tr, smul_x, smul_z, Fin.zero_eta, cons_val_zero, mul_one]
      rw [show u 0 = n * a by rw [ha]; field_simp]
      field_simp
    · simp only [tr, smul_y, smul_z, Fin.mk_one, cons_val_one, cons_val_fin_one, mul_one]
      rw [show u 1 = n * b by rw [hb]; field_simp]
      field_simp

/-! ### A single refracting surface, focusing a distant object inside the glass -/

/-- A glass with dispersion. -/
noncomputable def exGlass : Material := ⟨false, true, fun w => 3 / 2 + (1 - w) / 10⟩

/-- A spherical surface and the image plane inside the glass. -/
noncomputable def exSingle : List Elem :=
  [{ tf := Transform.update 5 ⟨0, 0, 1⟩ 0, radius := .inf, material := some (some exGlass),
     shape := some ⟨1 / 10, 0, none, false⟩ },
   { tf := Transform.update 30 ⟨0, 0, 1⟩ 0, radius := .inf, material := none, shape := none }]

/-- The same with a surface without material (`material=None`) in the glass. -/
noncomputable def exDummy : List Elem :=
  [{ tf := Transform.update 5 ⟨0, 0, 1⟩ 0, radius := .inf, material := some (some exGlass),
     shape := some ⟨1 / 10, 0, none, false⟩ },
   { tf := Transform.update 10 ⟨0, 0, 1⟩ 0, radius := .inf, material := some none,
     shape := some ⟨0, 0, none, false⟩ },
   { tf := Transform.update 20 ⟨0, 0, 1⟩ 0, radius := .inf, material := none, shape := none }]

/-- An object at infinity with field slope `σ`. -/
noncomputable def exStart (σ : ℝ) : PRow := ⟨1, ![1, 0], ![0, σ]⟩

theorem update_distance_z (d : ℝ) (hd : 0 ≤ d) : (Transform.update d ⟨0, 0, 1⟩ 0).distance = d := by
  rw [Transform.update_distance, abs_of_nonneg hd]

theorem exSingle_good (nwt : NewtonFn) : GoodFrom nwt 1 1 1 exSingle := by
  have h1 : ∀ e : Elem, e.mat.any (·.mirror) = false → sideAfter 1 e = 1 := by
    intro e h; exact if_neg (by simp [h])
  refine ⟨good_conic (.inl rfl) (by norm_num) one_pos trivial (by norm_num [exGlass]) (by simp [exGlass])
    (by norm_num), ?_, trivial⟩
  rw [h1 _ (by simp [mat, exGlass])]
  exact Good.of (onAxis_update 30 1 (by norm_num) (.inl rfl)) (by norm_num [paraxN, index?, mat, exGlass])
      trivial (by simp) (by simp) (by simp [mat]) (by simp [mat])

theorem prow_eq {b : PRow} {n y0 y1 u0 u1 : ℝ} (hn : b.n = n) (h0 : b.y 0 = y0) (h1 : b.y 1 = y1)
    (h2 : b.u 0 = u0) (h3 : b.u 1 = u1) : b = ⟨n, ![y0, y1], ![u0, u1]⟩ := by
  cases b
  simp only at hn h0 h1 h2 h3
  subst hn
  congr 1 <;> (funext k; fin_cases k <;> simp [h0, h1, h2, h3])

theorem exSingle_trace (σ : ℝ) (obj : Elem) (axis : Fin 2) :
    PTrace.trace (obj :: exSingle) axis 1 (exStart σ)
      = some [exStart σ, ⟨3 / 2, ![1, 5 * σ], ![-1 / 20, 3 / 4 * σ]⟩,
          ⟨3 / 2, ![0, 20 * σ], ![-1 / 20, 3 / 4 * σ]⟩] := by
  have hg := (exSingle_good (fun _ _ _ => none)).fine
  obtain ⟨prows, ht, hlen⟩ := good_trace (r0 := exStart σ) (.inl rfl) hg obj axis
  have hst := parax_steps (r0 := exStart σ) hg ht
  match prows, hlen with
  | [b1, b2], _ =>
    obtain ⟨n1, P1, hP1, hk1⟩ := hst 0 _ _ b1 rfl rfl rfl
    obtain ⟨n2, P2, hP2, hk2⟩ := hst 1 _ b1 b2 rfl rfl rfl
    have e1 : P1 = -1 / 20 := by
      simp [uprightPower, Shape.paraxCurv, Elem.mat, exGlass, exStart] at hP1
      rw [← hP1]; norm_num
    have e2 : P2 = 0 := by
      simp [uprightPower] at hP2
      exact hP2.symm
    have n1' : b1.n = 3 / 2 := by rw [n1]; simp [Elem.paraxN, Elem.index?, Elem.mat, exGlass]
    simp only [update_distance_z 5 (by norm_num), e1] at hk1
    simp only [update_distance_z 30 (by norm_num), e2, n1'] at hk2
    have r1 : b1 = ⟨3 / 2, ![1, 5 * σ], ![-1 / 20, 3 / 4 * σ]⟩ := by
      have y0 : b1.y 0 = 1 := by rw [(hk1 0).1]; simp [exStart]
      have y1 : b1.y 1 = 5 * σ := by rw [(hk1 1).1]; simp [exStart]
      exact prow_eq n1' y0 y1 (by rw [(hk1 0).2, y0]; simp [exStart])
        (by rw [(hk1 1).2, y1]; simp [exStart]; ring)
    have r2 : b2 = ⟨3 / 2, ![0, 20 * σ], ![-1 / 20, 3 / 4 * σ]⟩ :=
      prow_eq (by rw [n2]; simp [Elem.paraxN, Elem.index?, n1']) (by rw [(hk2 0).1, r1]; norm_num)
        (by rw [(hk2 1).1, r1]; simp; ring) (by rw [(hk2 0).2, r1]; simp) (by rw [(hk2 1).2, r1]; simp)
    rw [ht, r1, r2]

/-- The coefficients of the surface. -/
noncomputable def exSeidel (σ : ℝ) : Seidel :=
  ⟨-1 / (9000 * σ), -1 / 600, -σ / 40, -σ / 60, -5 / 8 * σ ^ 2, -1 / (750 * σ), -1 / 50⟩

theorem exSingle_surface (σ : ℝ) (hσ : σ ≠ 0) (tf : Transform) :
    Elem.aberration ⟨tf, .inf, some ⟨1 / 10, 0, none, false⟩, some (some exGlass)⟩ ![1, 5 * σ] ![0, σ] ![-1 / 20, 3 / 4 * σ] 1 (3 / 2) 0
      (1 / 50) = some (exSeidel σ) := by
  have hl : -1 / 20 * (5 * σ) - 3 / 4 * σ * 1 = -σ := by ring
  have hm : (⟨tf, .inf, some ⟨1 / 10, 0, none, false⟩, some (some exGlass)⟩ : Elem).mat.any (·.mirror)
      = false := rfl
  simp only [Elem.aberration, hm, Shape.figure, Option.bind_some,
    Bool.false_eq_true, if_false, cons_val_zero, cons_val_one, cons_val_fin_one, hl]
  rw [if_neg (by simp [hσ])]
  simp only [exSeidel, Option.some.injEq, Seidel.mk.injEq]
  refine ⟨?_, ?_, ?_, ?_, ?_, ?_, ?_⟩ <;> field_simp <;> ring

theorem ex_waves : ([9 / 10, 1, 11 / 10] : List ℝ).min? = some (9 / 10) ∧
    ([9 / 10, 1, 11 / 10] : List ℝ).max? = some (11 / 10) := by
  constructor
  · norm_num [List.min?]
  · norm_num [List.max?]

theorem exSingle_aberrations (σ : ℝ) (hσ : σ ≠ 0) (obj : Elem) :
    PTrace.aberrations (obj :: exSingle) [9 / 10, 1, 11 / 10]
      [exStart σ, ⟨3 / 2, ![1, 5 * σ], ![-1 / 20, 3 / 4 * σ]⟩,
          ⟨3 / 2, ![0, 20 * σ], ![-1 / 20, 3 / 4 * σ]⟩]
      = some [⟨0, 0, 0, 0, 0, 0, 0⟩, exSeidel σ, ⟨0, 0, 0, 0, 0, 0, 0⟩] := by
  have hd : ∀ tf, Elem.dispersion ⟨tf, .inf, some ⟨1 / 10, 0, none, false⟩, some (some exGlass)⟩ (9 / 10) (11 / 10) = 1 / 50 := by
    intro tf
    simp only [Elem.dispersion, Elem.mat, exGlass]
    norm_num
  simp only [PTrace.aberrations, ex_waves.1, ex_waves.2, Option.bind_some, List.tail_cons, exSingle,
    aberrationsFrom, hd, exStart, exSingle_surface σ hσ, Option.map_some]
  simp [Elem.aberration]

/-- `c67_image_plane` applied: rays of every pupil zone `ρ` and field `τ` through the surface. -/
example (nwt : NewtonFn) (clp : Bool) (ρ τ : Fin 2 → ℝ) :
    ∃ r : ℝ → Ray, ∃ Y : ℝ → V3,
      (∀ᶠ t in 𝓝 0, ∃ row e, exSingle[1]? = some e ∧ (rows nwt 1 clp exSingle (r t))[1]? = some row ∧
        (rayOfRow e row).y = some (Y t)) ∧
      ∀ i, Odd3 (fun t => tr (Y t) i) (τ i * 2) (2 * (exSeidel (1 / 10)).blur ρ τ i) := by
  have hr := near3_start 1 one_pos (fun i => ρ i * (exStart (1 / 10)).y 0 + τ i * (exStart (1 / 10)).y 1)
    (fun i => ρ i * (exStart (1 / 10)).u 0 + τ i * (exStart (1 / 10)).u 1)
  obtain ⟨Y, h1, h2⟩ := c67_image_plane (r0 := exStart (1 / 10)) (clp := clp) (exSingle_good nwt).fine
    (exSingle_trace (1 / 10) ⟨Transform.update 0 ⟨0, 0, 1⟩ 0, .inf, none, none⟩ 0)
    (exSingle_aberrations _ (by norm_num) _) hr (.inr ⟨rfl, fun _ => rfl⟩)
    (by norm_num [PTrace.lagrange, exStart]) (j := 1) rfl rfl rfl rfl
  refine ⟨_, Y, h1.mono fun t ⟨x, h, h'⟩ => ⟨x, _, rfl, h, h'⟩, fun i => ?_⟩
  have h3 := h2 i
  simp only [cons_val_one, cons_val_fin_one] at h3
  have : blurSum [⟨0, 0, 0, 0, 0, 0, 0⟩, exSeidel (1 / 10), ⟨0, 0, 0, 0, 0, 0, 0⟩] ρ τ (1 + 1) i
      = (exSeidel (1 / 10)).blur ρ τ i := by
    simp [blurSum, Seidel.blur]
  rw [this] at h3
  convert h3 using 2 <;> norm_num

/-- C67 does not hold for `transverse3` if the image is upside down: the sign is lost. -/
theorem c67_transverse_violation : ∃ (nwt : NewtonFn) (es : List Elem) (obj : Elem) (r0 b : PRow)
    (prows : List PRow) (ws : List ℝ) (c T : List Seidel) (ρ τ : Fin 2 → ℝ),
    GoodFrom nwt 1 r0.n 1 es ∧ PTrace.trace (obj :: es) 0 1 r0 = some prows ∧
    PTrace.aberrations (obj :: es) ws prows = some c ∧ PTrace.transverse3 c prows = some T ∧
    prows.getLast? = some b ∧ b.y 0 = 0 ∧ PTrace.lagrange r0 ≠ 0 ∧
    b.y 1 * blurSum c ρ τ es.length 0 ≠ blurSum T ρ τ es.length 0 := by
  refine ⟨fun _ _ _ => none, exSingle, ⟨Transform.update 0 ⟨0, 0, 1⟩ 0, .inf, none, none⟩,
    exStart (-1 / 10), _, _, _, _, _, ![1, 0], ![0, 0], exSingle_good _, exSingle_trace _ _ _,
    exSingle_aberrations _ (by norm_num) _, rfl, rfl, rfl, by norm_num [PTrace.lagrange, exStart], ?_⟩
  have hb : |20 * (-1 / 10 : ℝ)| = 2 := by rw [abs_of_neg] <;> norm_num
  simp [blurSum, exSingle, Seidel.blur, exSeidel, dot2, hb]
  norm_num

/-- The example of `c67_textbook`. -/
example : (2 * (-1 / 10) * (exSeidel (1 / 10)).tsc : ℝ) = -(1 / 10) ^ 2 * 1 * (-1 / 20 / (3 / 2) ^ 2 - 0 / 1 ^ 2)
    + 8 * 0 * (3 / 2 - 1) * 1 ^ 4 := by
  have := (c67_textbook (exSingle_surface (1 / 10) (by norm_num) (Transform.update 5 ⟨0, 0, 1⟩ 0)) rfl
    (C := 1 / 10) (K := 0) (by simp [figure]) (ν := 3 / 2) (by simp [Elem.mat, exGlass])
    (by intro k; fin_cases k <;> norm_num) (L := -1 / 10) (by norm_num) rfl rfl rfl rfl).1
  norm_num [exSeidel]

/-- The example of `c67_stop_shift_trace`: the stop moved by `Q`. -/
example (Q : ℝ) (c' : List Seidel) (prows' : List PRow) (obj : Elem)
    (ht' : PTrace.trace (obj :: exSingle) 0 1 ⟨1, ![1, Q], ![0, 1 / 10]⟩ = some prows')
    (hc' : PTrace.aberrations (obj :: exSingle) [9 / 10, 1, 11 / 10] prows' = some c') :
    List.Forall₂ (StopShift Q) [⟨0, 0, 0, 0, 0, 0, 0⟩, exSeidel (1 / 10), ⟨0, 0, 0, 0, 0, 0, 0⟩] c' :=
  c67_stop_shift_trace (r0 := exStart (1 / 10)) (r0' := ⟨1, ![1, Q], ![0, 1 / 10]⟩) (exSingle_good fun _ _ _ => none).fine
    ⟨rfl, rfl, by simp [exStart], rfl, by simp [exStart]⟩ (exSingle_trace _ _ _) ht'
    (exSingle_aberrations _ (by norm_num) _) hc'

/-- The example of `c67_figure`: an asphere with four coefficients. -/
example : (⟨1 / 10, -1 / 2, some [1 / 100, 1 / 1000, 0, 2], false⟩ : Shape).figure
    = some (1 / 10 + 2 * (1 / 100), -1 / 2 * (1 / 10) ^ 3 / 8
      + (1 / 1000 - 1 / 100 / 4 * (4 * (1 / 100) ^ 2 + 6 * (1 / 10) * (1 / 100) + 3 * (1 / 10) ^ 2))) := rfl

/-- The example of `c67_colour`. -/
example (nwt : NewtonFn) : GoodFrom nwt 1 (exStart (1 / 10)).n 1 exSingle ∧
    Coloured (9 / 10) (11 / 10) 0 exSingle ∧
    (∀ᶠ ε in 𝓝 0, ∃ prows, PTrace.trace (⟨Transform.update 0 ⟨0, 0, 1⟩ 0, .inf, none, none⟩
      :: exSingle.map (Elem.tint (9 / 10) (11 / 10) ε)) 0 1 (exStart (1 / 10)) = some prows) := by
  have hcol : Coloured (9 / 10) (11 / 10) 0 exSingle :=
    ⟨.inl ⟨rfl, _, rfl, rfl⟩, .inr (.inr ⟨rfl, rfl, rfl⟩), trivial⟩
  refine ⟨exSingle_good nwt, hcol, ?_⟩
  filter_upwards [good_tint (v := 0) exSingle (exSingle_good nwt).fine hcol] with ε h
  rw [mul_zero, add_zero] at h
  obtain ⟨p, hp, _⟩ := good_trace (r0 := exStart (1 / 10)) (.inl rfl) h
    ⟨Transform.update 0 ⟨0, 0, 1⟩ 0, .inf, none, none⟩ 0
  exact ⟨_, hp⟩

theorem exDummy_good (nwt : NewtonFn) (ε : ℝ) (hε : |ε| < 1) :
    GoodFrom nwt 1 1 1 (exDummy.map (Elem.tint (9 / 10) (11 / 10) ε)) := by
  obtain ⟨hε1, hε2⟩ := abs_lt.mp hε
  have h1 : ∀ e : Elem, e.mat.any (·.mirror) = false → sideAfter 1 e = 1 := by
    intro e h; exact if_neg (by simp [h])
  have hN : (0 : ℝ) < 3 / 2 + (1 - 1) / 10 + ε * ((3 / 2 + (1 - 9 / 10) / 10) - (3 / 2 + (1 - 11 / 10) / 10)) := by
    norm_num; linarith
  refine ⟨good_conic (.inl rfl) (by norm_num) one_pos trivial hN (fun h => absurd h (by simp [exGlass]))
    (by norm_num), ?_, ?_, trivial⟩
  · rw [h1 _ rfl]
    refine Good.of (onAxis_update 10 1 (by norm_num) (.inl rfl)) hN trivial ?_ ?_ ?_ ?_
    · intro sh h
      cases h
      exact conic_hit nwt _ 0 1 _ rfl (.inr rfl) (by norm_num) one_pos (.inl rfl)
    · intro sh h; cases h; simp [paraxCurv]
    · intro m h; cases h
    · intro m h; cases h
  · rw [h1 _ rfl, h1 _ rfl]
    refine Good.of (onAxis_update 20 1 (by norm_num) (.inl rfl)) hN trivial ?_ ?_ ?_ ?_
    · intro sh h; cases h
    · intro sh h; cases h
    · intro m h; cases h
    · intro m h; cases h

theorem exDummy_trace (ε : ℝ) (hε : |ε| < 1) (obj : Elem) : ∃ b1 b2 b3 : PRow,
    PTrace.trace (obj :: exDummy.map (Elem.tint (9 / 10) (11 / 10) ε)) 0 1 (exStart (1 / 10))
      = some [exStart (1 / 10), b1, b2, b3] ∧ b3.y 0 = 3 / (3 / 2 + ε / 50) - 2 ∧
    (ε = 0 → b1 = ⟨3 / 2, ![1, 1 / 2], ![-1 / 20, 3 / 40]⟩ ∧ b2 = ⟨3 / 2, ![2 / 3, 1], ![-1 / 20, 3 / 40]⟩ ∧
      b3 = ⟨3 / 2, ![0, 2], ![-1 / 20, 3 / 40]⟩) := by
  have hg := (exDummy_good (fun _ _ _ => none) ε hε).fine
  obtain ⟨prows, ht, hlen⟩ := good_trace (r0 := exStart (1 / 10)) (.inl rfl) hg obj 0
  have hst := parax_steps (r0 := exStart (1 / 10)) hg ht
  have hN : (0 : ℝ) < 3 / 2 + ε / 50 := by
    obtain ⟨hε1, hε2⟩ := abs_lt.mp hε
    linarith
  match prows, hlen with
  | [b1, b2, b3], _ =>
    obtain ⟨n1, P1, hP1, hk1⟩ := hst 0 _ _ b1 rfl rfl rfl
    obtain ⟨n2, P2, hP2, hk2⟩ := hst 1 _ b1 b2 rfl rfl rfl
    obtain ⟨n3, P3, hP3, hk3⟩ := hst 2 _ b2 b3 rfl rfl rfl
    have e1 : P1 = -(1 / 20 + ε / 500) := by
      simp [uprightPower, Shape.paraxCurv, Elem.mat, exGlass, exStart, Elem.tint] at hP1
      rw [← hP1]; ring
    have e2 : P2 = 0 := by
      simp [uprightPower, Elem.tint, Elem.mat, Shape.paraxCurv] at hP2
      exact hP2.symm
    have e3 : P3 = 0 := by
      simp [uprightPower, Elem.tint] at hP3
      exact hP3.symm
    have n1' : b1.n = 3 / 2 + ε / 50 := by
      rw [n1]; simp [Elem.paraxN, Elem.index?, Elem.mat, exGlass, Elem.tint]; ring
    have n2' : b2.n = 3 / 2 + ε / 50 := by
      rw [n2, n1']; simp [Elem.paraxN, Elem.index?, Elem.mat, Elem.tint]
    have n3' : b3.n = 3 / 2 + ε / 50 := by
      rw [n3, n2']; simp [Elem.paraxN, Elem.index?, Elem.tint]
    simp only [Elem.tint, update_distance_z 5 (by norm_num), e1] at hk1
    simp only [Elem.tint, update_distance_z 10 (by norm_num), e2, n1', zero_mul, add_zero] at hk2
    simp only [Elem.tint, update_distance_z 20 (by norm_num), e3, n2', zero_mul, add_zero] at hk3
    have y10 : b1.y 0 = 1 := by rw [(hk1 0).1]; simp [exStart]
    have y11 : b1.y 1 = 1 / 2 := by rw [(hk1 1).1]; simp [exStart]; norm_num
    have u10 : b1.u 0 = -(1 / 20 + ε / 500) := by rw [(hk1 0).2, y10]; simp [exStart]
    have u11 : b1.u 1 = 3 / 40 - ε / 1000 := by rw [(hk1 1).2, y11]; simp [exStart]; ring
    refine ⟨b1, b2, b3, ht, ?_, ?_⟩
    · rw [(hk3 0).1, (hk2 0).2, (hk2 0).1, y10, u10,
        show 1 / 20 + ε / 500 = ((3 / 2 + ε / 50) - 1) / 10 by ring]
      generalize 3 / 2 + ε / 50 = N at hN
      field_simp
      ring
    · rintro rfl
      norm_num at n1' n2' n3' u10 u11
      refine ⟨prow_eq n1' y10 y11 (by rw [u10]; norm_num) u11,
        prow_eq n2' (by rw [(hk2 0).1, y10, u10]; norm_num) (by rw [(hk2 1).1, y11, u11]; norm_num)
          (by rw [(hk2 0).2, u10]; norm_num) (by rw [(hk2 1).2, u11]),
        prow_eq n3' (by rw [(hk3 0).1, (hk2 0).2, (hk2 0).1, y10, u10]; norm_num)
          (by rw [(hk3 1).1, (hk2 1).2, (hk2 1).1, y11, u11]; norm_num)
          (by rw [(hk3 0).2, (hk2 0).2, u10]; norm_num) (by rw [(hk3 1).2, (hk2 1).2, u11])⟩

/-- C67 does not hold for the chromatic sums if an element without material stands in a dispersive
medium: its dispersion is taken to be zero, so a surface that does nothing to any ray contributes,
and the sum is not the chromatic change of the image. -/
theorem c67_colour_violation : ∃ (es : List Elem) (obj : Elem) (r0 b : PRow) (ws : List ℝ)
    (prows : ℝ → List PRow) (c : List Seidel) (y : ℝ → ℝ),
    (∀ nwt, GoodFrom nwt 1 r0.n 1 es) ∧ ws.min? = some (9 / 10) ∧ ws.max? = some (11 / 10) ∧
    (∀ᶠ ε in 𝓝 0, PTrace.trace (obj :: es.map (Elem.tint (9 / 10) (11 / 10) ε)) 0 1 r0 = some (prows ε)) ∧
    PTrace.aberrations (obj :: es) ws (prows 0) = some c ∧ PTrace.lagrange r0 ≠ 0 ∧
    (∀ᶠ ε in 𝓝 0, (prows ε).getLast?.map (·.y 0) = some (y ε)) ∧
    (prows 0).getLast? = some b ∧ b.y 0 = 0 ∧
    ¬HasDerivAt y (b.y 1 * (c.map Seidel.tachc).sum) 0 := by
  let obj : Elem := ⟨Transform.update 0 ⟨0, 0, 1⟩ 0, .inf, none, none⟩
  have hsmall : ∀ᶠ ε in 𝓝 (0 : ℝ), |ε| < 1 := by
    have : Tendsto (fun ε : ℝ => |ε|) (𝓝 0) (𝓝 |0|) := continuous_abs.tendsto 0
    exact this.eventually_lt_const (by simp)
  have hex : ∀ ε : ℝ, ∃ p : List PRow, |ε| < 1 →
      PTrace.trace (obj :: exDummy.map (Elem.tint (9 / 10) (11 / 10) ε)) 0 1 (exStart (1 / 10)) = some p ∧
      p.getLast?.map (·.y 0) = some (3 / (3 / 2 + ε / 50) - 2) ∧
      (ε = 0 → p = [exStart (1 / 10), ⟨3 / 2, ![1, 1 / 2], ![-1 / 20, 3 / 40]⟩,
        ⟨3 / 2, ![2 / 3, 1], ![-1 / 20, 3 / 40]⟩, ⟨3 / 2, ![0, 2], ![-1 / 20, 3 / 40]⟩]) := by
    intro ε
    by_cases h : |ε| < 1
    · obtain ⟨b1, b2, b3, ht, hy, h0⟩ := exDummy_trace ε h obj
      refine ⟨_, fun _ => ⟨ht, by simp [hy], fun hε => ?_⟩⟩
      obtain ⟨rfl, rfl, rfl⟩ := h0 hε
      rfl
    · exact ⟨[], fun h' => absurd h' h⟩
  choose prows hp using hex
  have hp0 := (hp 0 (by simp)).2.2 rfl
  have hgood : ∀ nwt, GoodFrom nwt 1 1 1 exDummy := by
    intro nwt
    have := exDummy_good nwt 0 (by simp)
    have h : exDummy.map (Elem.tint (9 / 10) (11 / 10) 0) = exDummy := by
      simp [exDummy, Elem.tint]
    rwa [h] at this
  have hs := exSingle_surface (1 / 10) (by norm_num)
  have hd : ∀ tf, Elem.dispersion ⟨tf, .inf, some ⟨1 / 10, 0, none, false⟩, some (some exGlass)⟩ (9 / 10)
      (11 / 10) = 1 / 50 := by
    intro tf
    simp only [Elem.dispersion, Elem.mat, exGlass]
    norm_num
  have hd2 : ∀ tf, Elem.dispersion ⟨tf, .inf, some ⟨0, 0, none, false⟩, some none⟩ (9 / 10)
      (11 / 10) = 0 := fun tf => rfl
  have hs2 : ∀ tf, ∃ x, Elem.aberration ⟨tf, .inf, some ⟨0, 0, none, false⟩, some none⟩ ![2 / 3, 1]
      ![-1 / 20, 3 / 40] ![-1 / 20, 3 / 40] (3 / 2) (3 / 2) (1 / 50) 0 = some x ∧ x.tachc = -1 / 225 := by
    intro tf
    have hm : (⟨tf, .inf, some ⟨0, 0, none, false⟩, some none⟩ : Elem).mat.any (·.mirror) = false := rfl
    simp only [Elem.aberration, hm, Shape.figure, Option.bind_some,
      Bool.false_eq_true, if_false, cons_val_zero, cons_val_one, cons_val_fin_one]
    rw [if_neg (by norm_num)]
    exact ⟨_, rfl, by norm_num⟩
  obtain ⟨x, hx, hx'⟩ := hs2 (Transform.update 10 ⟨0, 0, 1⟩ 0)
  refine ⟨exDummy, obj, exStart (1 / 10), ⟨3 / 2, ![0, 2], ![-1 / 20, 3 / 40]⟩, [9 / 10, 1, 11 / 10], prows,
    [⟨0, 0, 0, 0, 0, 0, 0⟩, exSeidel (1 / 10), x, ⟨0, 0, 0, 0, 0, 0, 0⟩],
    fun ε => 3 / (3 / 2 + ε / 50) - 2, hgood, ex_waves.1, ex_waves.2,
    hsmall.mono fun ε h => (hp ε h).1, ?_, by norm_num [PTrace.lagrange, exStart],
    hsmall.mono fun ε h => (hp ε h).2.1, by rw [hp0]; rfl, rfl, ?_⟩
  · rw [hp0]
    norm_num at hs
    simp only [PTrace.aberrations, ex_waves.1, ex_waves.2, Option.bind_some, List.tail_cons, exDummy,
      aberrationsFrom, hd, hd2, hx, exStart, Option.map_some]
    norm_num
    rw [hs]
    simp [Elem.aberration]
  · intro h
    have h1 : HasDerivAt (fun ε : ℝ => 3 / (3 / 2 + ε / 50) - 2) (-2 / 75) 0 := by
      have h2 := ((hasDerivAt_const (0 : ℝ) (3 : ℝ)).div
        (((hasDerivAt_id (0 : ℝ)).div_const 50).const_add (3 / 2)) (by norm_num)).sub_const 2
      refine h2.congr_deriv ?_
      norm_num
    have h3 := h.unique h1
    norm_num [exSeidel, hx'] at h3

end RayOpt
