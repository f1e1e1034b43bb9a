import Verif.Props.Solve
import Verif.Props.LimitSystem

/-!
Property C75: ray aiming (`aim_chief`, `aim_marginal`, `_aim_pupil`, rayopt/system.py 507-583).
-/

namespace RayOpt

open Solve Sys Aim

variable {nwt : Shape.NewtonFn} {l : ℝ}

theorem rows_take (clp : Bool) (es : List Elem) (r : Elem.Ray) (m : ℕ) :
    rows nwt l clp (es.take m) r = (rows nwt l clp es r).take m := by
  induction es generalizing r m with
  | nil => simp [rows]
  | cons e es ih =>
    cases m with
    | zero => simp [rows]
    | succ m => simp [rows, ih]

/-- The position of a ray at element `k`, in the frame of that element: row `k - 1` of the rows that
`System.propagate` yields from element 1 on. -/
noncomputable def posAt (nwt : Shape.NewtonFn) (sys : List Elem) (n l : ℝ) (yu : V3 × V3) (k : ℕ) :
    Option V3 :=
  ((propagate nwt sys ⟨some yu.1, some yu.2, n⟩ l 1 none false)[k - 1]?).bind Elem.Row.y

theorem pySlice_upto (sys : List Elem) (k : ℕ) (hk : k ≤ sys.length) (h0 : 0 < sys.length) :
    pySlice sys 1 (some (k : ℤ)) = (pySlice sys 1 none).take (k - 1) := by
  unfold pySlice
  have h1 : pyBound sys.length (1 : ℤ) = 1 := pyBound_nat _ 1 h0
  have h2 : pyStop sys.length (some (k : ℤ)) = k := pyBound_nat _ k hk
  have h3 : pyStop sys.length none = sys.length := rfl
  rw [h1, h2, h3, List.take_length, List.drop_take]

theorem propagate_take (sys : List Elem) (r : Elem.Ray) (k : ℕ) (hk : k ≤ sys.length)
    (h0 : 0 < sys.length) :
    propagate nwt sys r l 1 (some (k : ℤ)) false =
      (propagate nwt sys r l 1 none false).take (k - 1) := by
  unfold propagate
  rw [pySlice_upto sys k hk h0, rows_take]

theorem slice_length (sys : List Elem) (h0 : 0 < sys.length) :
    (pySlice sys 1 none).length = sys.length - 1 := by
  have := pySlice_length sys 1 h0 none
  have h3 : pyStop sys.length none = sys.length := rfl
  rw [h3] at this
  exact_mod_cast this

theorem full_length (sys : List Elem) (r : Elem.Ray) (h0 : 0 < sys.length) :
    (propagate nwt sys r l 1 none false).length = sys.length - 1 := by
  unfold propagate
  rw [rows_length, slice_length sys h0]

/-- What `dist` of `aim_chief` measures: the component along the field of the ray position at the
element `stop`, in units of the radius. -/
theorem chiefMerit_eq (sys : List Elem) (n : ℝ) (k : ℕ) (hk : 1 ≤ k) (hlt : k < sys.length)
    (R : Radius) (yo : ℝ × ℝ) (gen : ℝ → Option (V3 × V3)) (a : ℝ) :
    chiefMerit nwt sys l n k R yo gen a =
      (gen a).bind fun yu => (posAt nwt sys n l yu k).map fun y =>
        divRadius (yo.1 * y.x + yo.2 * y.y) R := by
  unfold chiefMerit
  congr 1
  funext yu
  have hc : ((k : ℤ) + 1) = ((k + 1 : ℕ) : ℤ) := by push_cast; rfl
  rw [hc, propagate_take sys _ (k + 1) hlt (by omega)]
  have hlen := full_length (nwt := nwt) (l := l) sys ⟨some yu.1, some yu.2, n⟩ (by omega)
  unfold posAt
  set rs := propagate nwt sys ⟨some yu.1, some yu.2, n⟩ l 1 none false
  have hl : (rs.take (k + 1 - 1)).getLast? = rs[k - 1]? := by
    rw [List.getLast?_eq_getElem?, List.length_take, List.getElem?_take]
    have : min (k + 1 - 1) rs.length - 1 = k - 1 := by omega
    rw [this, if_pos (by omega)]
  have hsome : k - 1 < rs.length := by omega
  simp only [hl]
  rw [List.getElem?_eq_getElem hsome]
  rfl

/-- C75, chief ray: with a telecentric pupil or aiming switched off the pupil distance is returned
as given. -/
theorem c75_chief_off (s : AimSys) (n : ℝ) (yo : ℝ × ℝ) (gen : ℝ → Option (V3 × V3))
    (newt : (ℝ → Option ℝ) → ℝ → Option ℝ) (z p : ℝ) (stop : Option ℤ) (a0 tol : ℝ) (maxiter : ℕ)
    (hp : p ≠ 0) (h : s.telecentric = true ∨ s.aim = false) :
    aimChief nwt s l n yo gen newt z p stop a0 tol maxiter = .ok z := by
  unfold aimChief
  rw [if_neg hp, if_pos]
  rcases h with h | h
  · exact .inl h
  · right; simp [h]

/-- A root finder of scipy that returns only points with a merit within `eps`. -/
def FindsRoots {α : Type*} (eps : ℝ) (ext : (ℝ → Option ℝ) → α → Option ℝ) : Prop :=
  ∀ m q x, ext m q = some x → ∃ f, m x = some f ∧ |f| ≤ eps

/-- C75, chief ray: if `aim_chief` returns `z'`, the ray that the object launches towards `z'` traces
to the stop and crosses the stop within `eps` radii of the centre, measured along the field. -/
theorem c75_chief (s : AimSys) (n : ℝ) (yo : ℝ × ℝ) (gen : ℝ → Option (V3 × V3))
    (newt : (ℝ → Option ℝ) → ℝ → Option ℝ) (z p : ℝ) (a0 tol eps : ℝ) (maxiter : ℕ)
    (ht : s.telecentric = false) (ha : s.aim = true) (hs : 1 ≤ s.stop) (hlt : s.stop < s.elems.length)
    (r : ℝ) (hr : s.elems[s.stop].radius = .fin r) (htol : tol ≤ eps) (hnewt : FindsRoots eps newt)
    (z' : ℝ) (h : aimChief nwt s l n yo gen newt z p none a0 tol maxiter = .ok z') :
    ∃ yu y, gen z' = some yu ∧ posAt nwt s.elems n l yu s.stop = some y ∧
      |yo.1 * y.x + yo.2 * y.y| ≤ eps * |r| := by
  unfold aimChief at h
  split at h
  · cases h
  · rw [if_neg (by simp [ht, ha])] at h
    rw [List.getElem?_eq_getElem hlt] at h
    simp only at h
    split at h
    · cases h
    · rename_i hrad
      rw [hr] at h hrad
      have hr0 : r ≠ 0 := not_not.mp hrad
      set dist := chiefMerit nwt s.elems l n s.stop (.fin r) yo fun a => gen (z + a * p) with hd
      have key : ∃ a f, z' = z + a * p ∧ dist a = some f ∧ |f| ≤ eps := by
        obtain ⟨h1, -, -⟩ := c31_outcome dist a0 tol maxiter
        cases ho : Solve.newton dist a0 tol maxiter with
        | accept x =>
          obtain ⟨f, hf, hle⟩ := h1 x ho
          rw [ho] at h
          simp only [Outcome.value, Except.map, Except.ok.injEq] at h
          exact ⟨x, f, h.symm, hf, hle.trans htol⟩
        | call q =>
          rw [ho] at h
          cases hq : newt dist q with
          | none => simp [Outcome.value, hq, Except.map] at h
          | some x =>
            simp only [Outcome.value, hq, Except.map, Except.ok.injEq] at h
            obtain ⟨f, hf, hle⟩ := hnewt dist q x hq
            exact ⟨x, f, h.symm, hf, hle⟩
        | fail e => rw [ho] at h; simp [Outcome.value, Except.map] at h
      obtain ⟨a, f, rfl, hf, hle⟩ := key
      rw [hd, chiefMerit_eq s.elems n s.stop hs hlt] at hf
      rw [Option.bind_eq_some_iff] at hf
      obtain ⟨yu, hg, hy⟩ := hf
      rw [Option.map_eq_some_iff] at hy
      obtain ⟨y, hy, hfy⟩ := hy
      refine ⟨yu, y, hg, hy, ?_⟩
      rw [← hfy] at hle
      simp only [divRadius] at hle
      rw [abs_div, div_le_iff₀ (abs_pos.mpr hr0)] at hle
      exact hle

/-! ### Marginal rays -/

theorem getLast_zipWith {α β γ : Type*} (f : α → β → γ) (l1 : List α) (l2 : List β) (k : ℕ)
    (h1 : l1.length = k + 1) (h2 : l2.length = k + 1) :
    (List.zipWith f l1 l2).getLast? = some (f (l1[k]'(by omega)) (l2[k]'(by omega))) := by
  have hl : (List.zipWith f l1 l2).length - 1 = k := by rw [List.length_zipWith]; omega
  rw [List.getLast?_eq_getElem?, hl, List.getElem?_eq_getElem (by rw [List.length_zipWith]; omega),
    List.getElem_zipWith]

/-- What `dist` of `aim_marginal` measures at `self[k]` for the bound `stop = k + 1`. -/
theorem marginalMerit_eq (sys : List Elem) (n : ℝ) (k : ℕ) (hk : 1 ≤ k) (hlt : k < sys.length)
    (gen : ℝ → Option (V3 × V3)) (a : ℝ) :
    marginalMerit nwt sys l n ((k + 1 : ℕ) : ℤ) false gen a =
      (gen a).bind fun yu => rimTerm sys[k].radius (posAt nwt sys n l yu k) := by
  unfold marginalMerit
  congr 1
  funext yu
  rw [propagate_take sys _ (k + 1) hlt (by omega), pySlice_upto sys (k + 1) hlt (by omega)]
  have hlen := full_length (nwt := nwt) (l := l) sys ⟨some yu.1, some yu.2, n⟩ (by omega)
  have hsl := slice_length sys (by omega)
  have hget : (pySlice sys 1 none)[k - 1]? = some sys[k] := by
    have h1 : pyBound sys.length (1 : ℤ) = 1 := pyBound_nat _ 1 (by omega)
    have h3 : pyStop sys.length none = sys.length := rfl
    unfold pySlice
    rw [h1, h3, List.take_length, List.getElem?_drop,
      List.getElem?_eq_getElem (by omega)]
    congr 1
    congr 1
    omega
  unfold posAt
  set rs := propagate nwt sys ⟨some yu.1, some yu.2, n⟩ l 1 none false
  rw [Nat.add_sub_cancel]
  simp only [Bool.false_eq_true, if_false]
  rw [getLast_zipWith _ _ _ (k - 1) (by rw [List.length_take]; omega)
    (by rw [List.length_take]; omega)]
  have e1 : ((pySlice sys 1 none).take k)[k - 1]'(by rw [List.length_take]; omega) = sys[k] := by
    rw [List.getElem_take]
    rw [List.getElem?_eq_getElem (by omega)] at hget
    exact Option.some.inj hget
  rw [e1, List.getElem_take, Option.getD_some, List.getElem?_eq_getElem (by omega)]
  rfl

theorem rimTerm_fin {r : ℝ} (hr : r ≠ 0) {y : Option V3} {f eps : ℝ}
    (h : rimTerm (.fin r) y = some f) (hle : |f| ≤ eps) :
    ∃ p, y = some p ∧ (1 - eps) * r ^ 2 ≤ p.x ^ 2 + p.y ^ 2 ∧
      p.x ^ 2 + p.y ^ 2 ≤ (1 + eps) * r ^ 2 := by
  unfold rimTerm at h
  rw [Option.map_eq_some_iff] at h
  obtain ⟨p, hp, hf⟩ := h
  refine ⟨p, hp, ?_⟩
  simp only [divRadius] at hf
  have hr2 : 0 < r ^ 2 := by positivity
  have hq : (p.x ^ 2 + p.y ^ 2) = (1 + f) * r ^ 2 := by
    rw [← hf]; field_simp; ring
  rw [hq]
  obtain ⟨h1, h2⟩ := abs_le.mp hle
  constructor
  · exact mul_le_mul_of_nonneg_right (by linarith) hr2.le
  · exact mul_le_mul_of_nonneg_right (by linarith) hr2.le

/-- The parameter that `aim_marginal` returns is `a*p` for a nonzero `a` with a merit within `eps`. -/
theorem brentq_value {dist : ℝ → Option ℝ} {a0 b0 tol eps : ℝ} {maxiter : ℕ}
    {brent : (ℝ → Option ℝ) → ℝ × ℝ → Option ℝ} (htol : tol ≤ eps) (hb : FindsRoots eps brent)
    {a : ℝ} (h : (Solve.brentq dist a0 b0 tol maxiter).value (brent dist) = .ok a) :
    ∃ f, dist a = some f ∧ |f| ≤ eps := by
  have hok := c30_outcome dist a0 b0 tol maxiter
  cases ho : Solve.brentq dist a0 b0 tol maxiter with
  | accept x =>
    rw [ho] at h hok
    simp only [Outcome.value, Except.ok.injEq] at h
    subst h
    obtain ⟨f, hf, hle⟩ := hok
    exact ⟨f, hf, hle.trans htol⟩
  | call q =>
    rw [ho] at h
    cases hq : brent dist q with
    | none => simp [Outcome.value, hq] at h
    | some x =>
      simp only [Outcome.value, hq, Except.ok.injEq] at h
      subst h
      exact hb dist q x hq
  | fail e => rw [ho] at h; simp [Outcome.value] at h

/-- The aiming loop of `aim_marginal` once `stop` is decided. -/
theorem aimMarginal_ok {s : AimSys} {n : ℝ} {gen : ℝ → Option (V3 × V3)}
    {brent : (ℝ → Option ℝ) → ℝ × ℝ → Option ℝ} {p a0 b0 tol eps : ℝ} {maxiter : ℕ}
    {stop : Option ℤ} (ha : s.aim = true ∨ stop = some (-1)) (htol : tol ≤ eps)
    (hb : FindsRoots eps brent) {p' : ℝ}
    (h : aimMarginal nwt s l n gen brent p stop a0 b0 tol maxiter = .ok p') :
    ∃ a f, a ≠ 0 ∧ p ≠ 0 ∧ p' = a * p ∧
      marginalMerit nwt s.elems l n (marginalStop s stop) (stop == some (-1))
        (fun a => gen (a * p)) a = some f ∧ |f| ≤ eps := by
  unfold aimMarginal at h
  split at h
  · cases h
  · rename_i hp
    simp only at h
    rw [if_neg (by rcases ha with ha | ha <;> simp [ha])] at h
    split at h
    · cases h
    · split at h
      · cases h
      · rename_i a hv
        split at h
        · cases h
        · rename_i ha0
          cases h
          obtain ⟨f, hf, hle⟩ := brentq_value htol hb hv
          exact ⟨a, f, ha0, hp, rfl, hf, hle⟩

/-- C75, marginal ray: if `aim_marginal` (without an explicit stop) returns `p'`, the ray that the
object launches with the pupil radius `p'` traces to the stop and meets its rim: the squared distance
from the axis is the squared radius within a factor `1 ± eps`. -/
theorem c75_marginal (s : AimSys) (n : ℝ) (gen : ℝ → Option (V3 × V3))
    (brent : (ℝ → Option ℝ) → ℝ × ℝ → Option ℝ) (p a0 b0 tol eps : ℝ) (maxiter : ℕ)
    (ha : s.aim = true) (hs : 1 ≤ s.stop) (hlt : s.stop < s.elems.length)
    (r : ℝ) (hr : s.elems[s.stop].radius = .fin r) (hr0 : r ≠ 0) (htol : tol ≤ eps)
    (hb : FindsRoots eps brent) (p' : ℝ)
    (h : aimMarginal nwt s l n gen brent p none a0 b0 tol maxiter = .ok p') :
    ∃ yu y, gen p' = some yu ∧ posAt nwt s.elems n l yu s.stop = some y ∧
      (1 - eps) * r ^ 2 ≤ y.x ^ 2 + y.y ^ 2 ∧ y.x ^ 2 + y.y ^ 2 ≤ (1 + eps) * r ^ 2 := by
  obtain ⟨a, f, -, -, rfl, hm, hle⟩ := aimMarginal_ok (.inl ha) htol hb h
  simp only [marginalStop] at hm
  have hc : ((s.stop : ℤ) + 1) = ((s.stop + 1 : ℕ) : ℤ) := by push_cast; rfl
  have hf : ((none : Option ℤ) == some (-1)) = false := rfl
  rw [hc, hf, marginalMerit_eq s.elems n s.stop hs hlt, Option.bind_eq_some_iff] at hm
  obtain ⟨yu, hg, hy⟩ := hm
  rw [hr] at hy
  obtain ⟨y, h1, h2, h3⟩ := rimTerm_fin hr0 hy hle
  exact ⟨yu, y, hg, h1, h2, h3⟩

/-- C75, violation: with an explicit `stop = k` the marginal ray meets the rim of the element before
it, `k - 1`, while `aim_chief` looks at element `k`. -/
theorem c75_marginal_explicit (s : AimSys) (n : ℝ) (gen : ℝ → Option (V3 × V3))
    (brent : (ℝ → Option ℝ) → ℝ × ℝ → Option ℝ) (p a0 b0 tol eps : ℝ) (maxiter k : ℕ)
    (ha : s.aim = true) (hs : 1 ≤ k) (hlt : k < s.elems.length)
    (r : ℝ) (hr : s.elems[k].radius = .fin r) (hr0 : r ≠ 0) (htol : tol ≤ eps)
    (hb : FindsRoots eps brent) (p' : ℝ)
    (h : aimMarginal nwt s l n gen brent p (some (k + 1 : ℕ)) a0 b0 tol maxiter = .ok p') :
    ∃ yu y, gen p' = some yu ∧ posAt nwt s.elems n l yu k = some y ∧
      (1 - eps) * r ^ 2 ≤ y.x ^ 2 + y.y ^ 2 ∧ y.x ^ 2 + y.y ^ 2 ≤ (1 + eps) * r ^ 2 := by
  obtain ⟨a, f, -, -, rfl, hm, hle⟩ := aimMarginal_ok (.inl ha) htol hb h
  have hne : ((k + 1 : ℕ) : ℤ) ≠ -1 := by omega
  simp only [marginalStop, if_neg hne] at hm
  have hf : (some ((k + 1 : ℕ) : ℤ) == some (-1)) = false := by
    rw [beq_eq_false_iff_ne]; simpa using hne
  rw [hf, marginalMerit_eq s.elems n k hs hlt, Option.bind_eq_some_iff] at hm
  obtain ⟨yu, hg, hy⟩ := hm
  rw [hr] at hy
  obtain ⟨y, h1, h2, h3⟩ := rimTerm_fin hr0 hy hle
  exact ⟨yu, y, hg, h1, h2, h3⟩

theorem maxTerm_spec (d : List (Option ℝ)) (f : ℝ) (h : maxTerm d = some f) :
    (∀ t ∈ d, ∃ x, t = some x ∧ x ≤ f) ∧ some f ∈ d := by
  induction d generalizing f with
  | nil => simp [maxTerm] at h
  | cons t ts ih =>
    cases ts with
    | nil =>
      simp only [maxTerm] at h
      subst h
      simp
    | cons t2 ts =>
      rw [maxTerm] at h
      · rw [Option.bind_eq_some_iff] at h
        obtain ⟨x, rfl, h⟩ := h
        rw [Option.map_eq_some_iff] at h
        obtain ⟨y, hy, rfl⟩ := h
        obtain ⟨h1, h2⟩ := ih y hy
        constructor
        · intro t ht
          rcases List.mem_cons.mp ht with rfl | ht
          · exact ⟨x, rfl, le_max_left _ _⟩
          · obtain ⟨w, hw, hle⟩ := h1 t ht
            exact ⟨w, hw, hle.trans (le_max_right _ _)⟩
        · rcases max_choice x y with h | h
          · rw [h]; simp
          · rw [h]; exact List.mem_cons_of_mem _ h2
      · simp

/-- C75, rim (`stop = -1`): the ray with the returned radius passes all elements between the first
and the last within their radii (up to a factor `1 + eps` for the square) and reaches the rim of at
least one of them. -/
theorem c75_rim (s : AimSys) (n : ℝ) (gen : ℝ → Option (V3 × V3))
    (brent : (ℝ → Option ℝ) → ℝ × ℝ → Option ℝ) (p a0 b0 tol eps : ℝ) (maxiter : ℕ)
    (rad : ℕ → ℝ) (hrad : ∀ k (_ : 1 ≤ k) (h2 : k + 1 < s.elems.length),
      (s.elems[k]'(by omega)).radius = .fin (rad k) ∧ rad k ≠ 0)
    (h0 : 0 < s.elems.length) (htol : tol ≤ eps) (hb : FindsRoots eps brent) (p' : ℝ)
    (h : aimMarginal nwt s l n gen brent p (some (-1)) a0 b0 tol maxiter = .ok p') :
    ∃ yu, gen p' = some yu ∧
      (∀ k, 1 ≤ k → k + 1 < s.elems.length → ∃ y, posAt nwt s.elems n l yu k = some y ∧
        y.x ^ 2 + y.y ^ 2 ≤ (1 + eps) * rad k ^ 2) ∧
      ∃ k, 1 ≤ k ∧ k + 1 < s.elems.length ∧ ∃ y, posAt nwt s.elems n l yu k = some y ∧
        (1 - eps) * rad k ^ 2 ≤ y.x ^ 2 + y.y ^ 2 := by
  obtain ⟨a, f, -, -, rfl, hm, hle⟩ := aimMarginal_ok (.inr rfl) htol hb h
  have hc : ((s.elems.length : ℤ) - 1) = ((s.elems.length - 1 : ℕ) : ℤ) := by omega
  simp only [marginalStop, if_true] at hm
  unfold marginalMerit at hm
  rw [Option.bind_eq_some_iff] at hm
  obtain ⟨yu, hg, hm⟩ := hm
  refine ⟨yu, hg, ?_⟩
  rw [hc, propagate_take s.elems _ _ (by omega) h0, pySlice_upto s.elems _ (by omega) h0] at hm
  have hlen := full_length (nwt := nwt) (l := l) s.elems ⟨some yu.1, some yu.2, n⟩ h0
  have hsl := slice_length s.elems h0
  have hget : ∀ j (h : j + 1 < s.elems.length),
      (pySlice s.elems 1 none)[j]'(by omega) = s.elems[j + 1] := by
    intro j hj
    have h1 : pyBound s.elems.length (1 : ℤ) = 1 := pyBound_nat _ 1 h0
    have h3 : pyStop s.elems.length none = s.elems.length := rfl
    have : (pySlice s.elems 1 none)[j]? = s.elems[j + 1]? := by
      unfold pySlice
      rw [h1, h3, List.take_length, List.getElem?_drop, Nat.add_comm]
    rw [List.getElem?_eq_getElem (by omega), List.getElem?_eq_getElem hj] at this
    exact Option.some.inj this
  unfold posAt
  set rs := propagate nwt s.elems ⟨some yu.1, some yu.2, n⟩ l 1 none false
  have ht : (some (-1 : ℤ) == some (-1)) = true := rfl
  rw [ht] at hm
  simp only [if_true] at hm
  obtain ⟨hall, hex⟩ := maxTerm_spec _ _ hm
  -- the terms by element
  have hterm : ∀ k (h1 : 1 ≤ k) (h2 : k + 1 < s.elems.length),
      rimTerm (.fin (rad k)) (rs[k - 1]'(by omega)).y ∈
        List.zipWith (fun (e : Elem) r => rimTerm e.radius r.y)
          ((pySlice s.elems 1 none).take (s.elems.length - 1 - 1)) (rs.take (s.elems.length - 1 - 1)) := by
    intro k h1 h2
    rw [List.mem_iff_getElem]
    refine ⟨k - 1, by simp only [List.length_zipWith, List.length_take]; omega, ?_⟩
    rw [List.getElem_zipWith, List.getElem_take, List.getElem_take, hget (k - 1) (by omega)]
    have : k - 1 + 1 = k := by omega
    simp only [this, (hrad k h1 h2).1]
  constructor
  · intro k h1 h2
    obtain ⟨x, hx, hxf⟩ := hall _ (hterm k h1 h2)
    unfold rimTerm at hx
    rw [Option.map_eq_some_iff] at hx
    obtain ⟨y, hy, hx⟩ := hx
    refine ⟨y, by rw [List.getElem?_eq_getElem (by omega)]; exact hy, ?_⟩
    simp only [divRadius] at hx
    have hr0 := (hrad k h1 h2).2
    have : y.x ^ 2 + y.y ^ 2 = (1 + x) * rad k ^ 2 := by rw [← hx]; field_simp; ring
    rw [this]
    have := (abs_le.mp hle).2
    exact mul_le_mul_of_nonneg_right (by linarith) (by positivity)
  · rw [List.mem_iff_getElem] at hex
    obtain ⟨j, hj, hjf⟩ := hex
    simp only [List.length_zipWith, List.length_take] at hj
    rw [List.getElem_zipWith, List.getElem_take, List.getElem_take, hget j (by omega),
      (hrad (j + 1) (by omega) (by omega)).1] at hjf
    obtain ⟨y, hy, h2, -⟩ := rimTerm_fin (hrad (j + 1) (by omega) (by omega)).2 hjf hle
    refine ⟨j + 1, by omega, by omega, y, ?_, h2⟩
    rw [Nat.add_sub_cancel, List.getElem?_eq_getElem (by omega)]
    exact hy

/-- C75, sign: from the default start of the search, with a root finder that stays in its bracket, the
returned radius is a positive multiple of the given one. -/
theorem c75_marginal_sign (s : AimSys) (n : ℝ) (gen : ℝ → Option (V3 × V3))
    (brent : (ℝ → Option ℝ) → ℝ × ℝ → Option ℝ) (p a0 b0 tol : ℝ) (maxiter : ℕ) (stop : Option ℤ)
    (ha0 : 0 ≤ a0) (hb0 : 0 < b0)
    (hb : ∀ m a b x, brent m (a, b) = some x → min a b ≤ x) (p' : ℝ)
    (h : aimMarginal nwt s l n gen brent p stop a0 b0 tol maxiter = .ok p') :
    ∃ t, 0 < t ∧ p' = t * p := by
  unfold aimMarginal at h
  split at h
  · cases h
  · simp only at h
    split at h
    · cases h; exact ⟨1, one_pos, (one_mul _).symm⟩
    · split at h
      · cases h
      · split at h
        · cases h
        · rename_i a hv
          split at h
          · cases h
          · rename_i hne
            cases h
            refine ⟨a, lt_of_le_of_ne ?_ (Ne.symm hne), rfl⟩
            set dist := marginalMerit nwt s.elems l n (marginalStop s stop) (stop == some (-1))
              (fun a => gen (a * p))
            obtain ⟨h1, h2⟩ := c30_positive dist a0 b0 tol maxiter ha0 hb0
            cases ho : Solve.brentq dist a0 b0 tol maxiter with
            | accept x =>
              rw [ho] at hv
              simp only [Outcome.value, Except.ok.injEq] at hv
              rw [← hv]; exact h1 x ho
            | call q =>
              obtain ⟨qa, qb⟩ := q
              rw [ho] at hv
              obtain ⟨p1, p2⟩ := h2 qa qb ho
              cases hq : brent dist (qa, qb) with
              | none => simp [Outcome.value, hq] at hv
              | some x =>
                simp only [Outcome.value, hq, Except.ok.injEq] at hv
                rw [← hv]
                exact (le_min p1 p2.le).trans (hb _ _ _ _ hq)
            | fail e => rw [ho] at hv; simp [Outcome.value] at hv

/-- C75, pupil: if the marginal search returns positive multiples of its guess and the upper guesses
are positive, the four radii have the signs of their directions: lower ones negative, upper ones
positive. -/
theorem c75_rims_sign (marg : Bool → Bool → ℝ → Except AimError ℝ)
    (hm : ∀ ax sig p q, marg ax sig p = .ok q → ∃ t, 0 < t ∧ q = t * p) (guess : Bool) (a a' : Ap)
    (h2 : 0 < a.hi.2) (h1 : guess = true → 0 < a.hi.1)
    (h : aimRims marg guess a = .ok a') :
    a'.lo.1 < 0 ∧ a'.lo.2 < 0 ∧ 0 < a'.hi.1 ∧ 0 < a'.hi.2 := by
  unfold aimRims at h
  cases e1 : marg true true a.hi.2 with
  | error e => rw [e1] at h; cases h
  | ok a1 =>
    rw [e1] at h
    obtain ⟨t1, ht1, q1⟩ := hm _ _ _ _ e1
    have p1 : 0 < a1 := by rw [q1]; positivity
    simp only [bind, Except.bind] at h
    set b : Ap := if guess = true then ⟨(a.lo.1, -a1), (a.hi.1, a1)⟩ else ⟨(-a1, -a1), (a1, a1)⟩
      with hb
    have hlo : b.lo.2 = -a1 := by rw [hb]; split <;> rfl
    have hhi : b.hi.2 = a1 := by rw [hb]; split <;> rfl
    have hx : 0 < b.hi.1 := by
      rw [hb]; split
      · rename_i hg; exact h1 hg
      · exact p1
    cases e2 : marg true false b.lo.2 with
    | error e => rw [e2] at h; cases h
    | ok a2 =>
      rw [e2] at h
      obtain ⟨t2, ht2, q2⟩ := hm _ _ _ _ e2
      have p2 : a2 < 0 := by rw [q2, hlo]; nlinarith
      simp only at h
      cases e3 : marg false true b.hi.1 with
      | error e => rw [e3] at h; cases h
      | ok a3 =>
        rw [e3] at h
        obtain ⟨t3, ht3, q3⟩ := hm _ _ _ _ e3
        have p3 : 0 < a3 := by rw [q3]; positivity
        simp only at h
        cases e4 : marg false false (-a3) with
        | error e => rw [e4] at h; cases h
        | ok a4 =>
          rw [e4] at h
          obtain ⟨t4, ht4, q4⟩ := hm _ _ _ _ e4
          have p4 : a4 < 0 := by rw [q4]; nlinarith
          cases h
          exact ⟨p4, p2, p3, by rw [hhi]; exact p1⟩

/-- C75: off axis with an object at a finite distance the search for the rims starts from the start radii times the ratio
of the new pupil distance to the old one, otherwise from the start radii. -/
theorem c75_start (finite : Bool) (z0 r0 z1 : ℝ) (chief : ℝ × ℝ → ℝ → ℝ → Except AimError ℝ)
    (marg : ℝ × ℝ → ℝ → Bool → Bool → ℝ → Except AimError ℝ) (y : ℝ × ℝ) (z a b c d : ℝ)
    (h : chief y z (max (max |a| |b|) (max |c| |d|)) = .ok z1) :
    aimPupil finite z0 r0 chief marg y false (some (z, ⟨(a, b), (c, d)⟩)) =
      (aimRims (marg y z1) true (if finite then
        ⟨(a * |z1 / z|, b * |z1 / z|), (c * |z1 / z|, d * |z1 / z|)⟩ else ⟨(a, b), (c, d)⟩)).map fun r => (z1, r) := by
  have hc : chief y z (Ap.absMax ⟨(a, b), (c, d)⟩) = .ok z1 := h
  simp only [aimPupil, aimStart, hc, Bool.false_eq_true, if_false, Option.isSome_some]
  cases finite <;> rfl

/-- C75, pupil: the pupil distance is the start value on axis and the result of the chief ray search
(with the largest radius as step) off axis; the four radii have the signs of their directions if the
start radii above the axis are positive. -/
theorem c75_pupil (finite : Bool) (z0 r0 : ℝ) (chief : ℝ × ℝ → ℝ → ℝ → Except AimError ℝ)
    (marg : ℝ × ℝ → ℝ → Bool → Bool → ℝ → Except AimError ℝ)
    (hm : ∀ y z ax sig p q, marg y z ax sig p = .ok q → ∃ t, 0 < t ∧ q = t * p)
    (y : ℝ × ℝ) (onAxis : Bool) (guess : Option (ℝ × Ap)) (z' : ℝ) (a' : Ap)
    (h : aimPupil finite z0 r0 chief marg y onAxis guess = .ok (z', a')) :
    (onAxis = true → z' = (guess.map Prod.fst).getD z0) ∧
    (onAxis = false → guess = none → chief y z0 |r0| = .ok z') ∧
    (onAxis = false → ∀ z a, guess = some (z, a) →
      ∃ p, chief y z p = .ok z' ∧ IsGreatest {|a.lo.1|, |a.lo.2|, |a.hi.1|, |a.hi.2|} p) ∧
    ((guess = none → 0 < r0) → (∀ z a, guess = some (z, a) → 0 < a.hi.1 ∧ 0 < a.hi.2) →
      (onAxis = false → finite = true → z' ≠ 0 ∧ (guess.map Prod.fst).getD z0 ≠ 0) →
      a'.lo.1 < 0 ∧ a'.lo.2 < 0 ∧ 0 < a'.hi.1 ∧ 0 < a'.hi.2) := by
  unfold aimPupil at h
  set za := aimStart z0 r0 guess with hza
  have hz : za.1 = (guess.map Prod.fst).getD z0 := by rw [hza]; cases guess <;> rfl
  have hpos : (guess = none → 0 < r0) → (∀ z a, guess = some (z, a) → 0 < a.hi.1 ∧ 0 < a.hi.2) →
      0 < za.2.hi.1 ∧ 0 < za.2.hi.2 := by
    intro h1 h2
    rw [hza]
    cases guess with
    | none => exact ⟨h1 rfl, h1 rfl⟩
    | some g => exact h2 g.1 g.2 rfl
  cases onAxis with
  | true =>
    simp only [if_true, bind, Except.bind, pure, Except.pure] at h
    cases hr : aimRims (marg y za.1) guess.isSome za.2 with
    | error e => rw [hr] at h; cases h
    | ok a =>
      rw [hr] at h
      cases h
      refine ⟨fun _ => hz, by simp, by simp, fun h1 h2 _ => ?_⟩
      obtain ⟨p1, p2⟩ := hpos h1 h2
      exact c75_rims_sign _ (hm y za.1) _ _ _ p2 (fun _ => p1) hr
  | false =>
    simp only [Bool.false_eq_true, if_false, bind, Except.bind, pure, Except.pure] at h
    cases hc : chief y za.1 za.2.absMax with
    | error e => rw [hc] at h; cases h
    | ok z1 =>
      rw [hc] at h
      simp only at h
      set b := if finite = true then za.2.scale |z1 / za.1| else za.2 with hb
      cases hr : aimRims (marg y z1) guess.isSome b with
      | error e => rw [hr] at h; cases h
      | ok a =>
        rw [hr] at h
        cases h
        refine ⟨by simp, fun _ hg => ?_, fun _ z a hg => ?_, fun h1 h2 h3 => ?_⟩
        · subst hg
          simpa [hza, aimStart, Ap.absMax] using hc
        · subst hg
          refine ⟨a.absMax, hc, ?_, ?_⟩
          · simp only [Ap.absMax, Set.mem_insert_iff, Set.mem_singleton_iff]
            rcases max_choice (max |a.lo.1| |a.lo.2|) (max |a.hi.1| |a.hi.2|) with h | h <;> rw [h]
            · rcases max_choice |a.lo.1| |a.lo.2| with h | h <;> rw [h] <;> simp
            · rcases max_choice |a.hi.1| |a.hi.2| with h | h <;> rw [h] <;> simp
          · intro x hx
            simp only [Set.mem_insert_iff, Set.mem_singleton_iff] at hx
            simp only [Ap.absMax, le_max_iff]
            rcases hx with rfl | rfl | rfl | rfl <;> simp
        · obtain ⟨p1, p2⟩ := hpos h1 h2
          have hbp : 0 < b.hi.1 ∧ 0 < b.hi.2 := by
            rw [hb]
            split
            · rename_i hf
              obtain ⟨q1, q2⟩ := h3 rfl hf
              rw [← hz] at q2
              have : 0 < |z'/ za.1| := abs_pos.mpr (div_ne_zero q1 q2)
              exact ⟨mul_pos p1 this, mul_pos p2 this⟩
            · exact ⟨p1, p2⟩
          exact c75_rims_sign _ (hm y z') _ _ _ hbp.2 (fun _ => hbp.1) hr

/-! ### Examples and the witness of the violation -/

/-- A dummy plane on the axis, at distance `d` from its predecessor. -/
noncomputable def plane (d r : ℝ) : Elem :=
  { tf := Transform.update d ⟨0, 0, 1⟩ 0, radius := .fin r, shape := none, material := none }

theorem step_plane (d r x y n : ℝ) (hd : 0 ≤ d) :
    Elem.step nwt l false (plane d r) ⟨some ⟨x, y, 0⟩, some ⟨0, 0, 1⟩, n⟩ =
      (⟨some ⟨x, y, 0⟩, some ⟨0, 0, 1⟩, n, some ⟨0, 0, 1⟩, some (d * n)⟩,
       ⟨some ⟨x, y, 0⟩, some ⟨0, 0, 1⟩, n⟩) := by
  have h := onAxis_update d 1 hd (.inl rfl)
  have hdist : (Transform.update d ⟨0, 0, 1⟩ 0).distance = d := by
    rw [Transform.update_distance, abs_of_nonneg hd]
  have hz : (⟨x, y, -d⟩ : V3) + d • ⟨0, 0, 1⟩ = ⟨x, y, 0⟩ := by ext <;> simp
  simp only [Elem.step, plane, Option.map_some, h.into, h.off, hdist]
  simp [Elem.propagate, Elem.intercept, Shape.interceptPlane, V3.turn, hz, h.back]

/-- Parallel rays in the meridional plane, at height `a`. -/
noncomputable def parallelRays (a : ℝ) : Option (V3 × V3) := some (⟨0, a, 0⟩, ⟨0, 0, 1⟩)

/-- Four planes; the two in the middle have radii 1 and 2, the second one is the stop. -/
noncomputable def exPlanes : AimSys := ⟨[plane 0 1, plane 1 1, plane 1 2, plane 1 1], 2, false, true⟩

theorem exPlanes_pos (k : ℕ) (h1 : 1 ≤ k) (h2 : k < 4) (a : ℝ) :
    posAt nwt exPlanes.elems 1 l (⟨0, a, 0⟩, ⟨0, 0, 1⟩) k = some ⟨0, a, 0⟩ := by
  have hp : pySlice exPlanes.elems 1 none = [plane 1 1, plane 1 2, plane 1 1] := rfl
  unfold posAt propagate
  rw [hp]
  simp only [rows, step_plane 1 _ 0 a 1 zero_le_one]
  rcases (by omega : k = 1 ∨ k = 2 ∨ k = 3) with rfl | rfl | rfl <;> rfl

/-- C75, violation, concretely: with the stop given explicitly as element 2 the marginal search
accepts a ray at height 1, the rim of element 1, which is half the radius of element 2. -/
theorem c75_violated_stop (brent : (ℝ → Option ℝ) → ℝ × ℝ → Option ℝ) :
    aimMarginal nwt exPlanes l 1 parallelRays brent 1 (some 2) 0 1 (1 / 1000) 30 = .ok 1 ∧
    posAt nwt exPlanes.elems 1 l (⟨0, 1, 0⟩, ⟨0, 0, 1⟩) 2 = some ⟨0, 1, 0⟩ ∧
    (exPlanes.elems[2]'(by decide)).radius = .fin 2 := by
  refine ⟨?_, exPlanes_pos 2 (by norm_num) (by norm_num) 1, rfl⟩
  have hm : ∀ a, marginalMerit nwt exPlanes.elems l 1 2 false (fun a => parallelRays (a * 1)) a =
      some (a ^ 2 - 1) := by
    intro a
    have := marginalMerit_eq (nwt := nwt) (l := l) exPlanes.elems 1 1 le_rfl (by decide)
      (fun a => parallelRays (a * 1)) a
    rw [show ((1 + 1 : ℕ) : ℤ) = 2 from rfl] at this
    rw [this]
    have hR : (exPlanes.elems[1]'(by decide)).radius = .fin 1 := rfl
    simp only [parallelRays, Option.bind_some]
    rw [exPlanes_pos 1 le_rfl (by norm_num), hR]
    simp [rimTerm, divRadius]
  have hs : pySlice exPlanes.elems 1 (some 2) ≠ [] := by simp [pySlice, pyStop, pyBound, exPlanes]
  have hb : bracket (marginalMerit nwt exPlanes.elems l 1 2 false fun a => parallelRays (a * 1))
      (1 / 1000) (29 + 1) 0 1 = .accept 1 := by
    rw [bracket, hm]
    norm_num
  have hv : Solve.brentq (marginalMerit nwt exPlanes.elems l 1 2 false
      fun a => parallelRays (a * 1)) 0 1 (1 / 1000) 30 = .accept 1 := by
    unfold Solve.brentq
    rw [if_neg (by norm_num), hb]
  unfold aimMarginal
  have h2 : marginalStop exPlanes (some 2) = 2 := rfl
  have h3 : ((some 2 : Option ℤ) == some (-1)) = false := rfl
  have h4 : exPlanes.aim = true := rfl
  simp only [h2, h3, h4, hv, Outcome.value]
  simp [hs]

/-- The marginal search with the default stop meets the rim of element 2 (for any root finder that
finds roots; the search calls it with a bracket). -/
example (brent : (ℝ → Option ℝ) → ℝ × ℝ → Option ℝ) (hb : FindsRoots (1 / 100) brent) (p' : ℝ)
    (h : aimMarginal nwt exPlanes l 1 parallelRays brent 1 none 0 1 (1 / 1000) 30 = .ok p') :
    (1 - 1 / 100) * 2 ^ 2 ≤ p' ^ 2 ∧ p' ^ 2 ≤ (1 + 1 / 100) * 2 ^ 2 := by
  obtain ⟨yu, y, hg, hy, h1, h2⟩ := c75_marginal exPlanes 1 parallelRays brent 1 0 1 (1 / 1000)
    (1 / 100) 30 rfl (by decide) (by decide) 2 rfl two_ne_zero (by norm_num) hb p' h
  cases hg
  have := exPlanes_pos (nwt := nwt) (l := l) 2 (by norm_num) (by norm_num) p'
  have hs : exPlanes.stop = 2 := rfl
  rw [hs, this] at hy
  cases hy
  exact ⟨by simpa using h1, by simpa using h2⟩

/-- A chief ray search that succeeds: rays at height `z`, field along y, start at `z = 5`. -/
example (newt : (ℝ → Option ℝ) → ℝ → Option ℝ) :
    aimChief nwt exPlanes l 1 (0, 1) parallelRays newt 5 1 none (-5) (1 / 1000) 30 = .ok 0 := by
  have hm : chiefMerit nwt exPlanes.elems l 1 (2 : ℕ) (.fin 2) (0, 1)
      (fun a => parallelRays (5 + a * 1)) (-5) = some 0 := by
    rw [chiefMerit_eq exPlanes.elems 1 2 (by norm_num) (by decide)]
    simp only [parallelRays, Option.bind_some]
    rw [exPlanes_pos 2 (by norm_num) (by norm_num)]
    simp [divRadius]
  have hn : Solve.newton (chiefMerit nwt exPlanes.elems l 1 (2 : ℕ) (.fin 2) (0, 1)
      fun a => parallelRays (5 + a * 1)) (-5) (1 / 1000) 30 = .accept (-5) := by
    unfold Solve.newton findStart
    rw [hm]
    norm_num
  unfold aimChief
  have h1 : exPlanes.telecentric = false := rfl
  have h2 : exPlanes.aim = true := rfl
  have h3 : exPlanes.elems[exPlanes.stop]? = some (plane 1 2) := rfl
  have h4 : (plane 1 2).radius = .fin 2 := rfl
  have h5 : exPlanes.stop = 2 := rfl
  rw [if_neg one_ne_zero, if_neg (by simp [h1, h2]), h3]
  simp only [h4, h5, hn, Outcome.value, Except.map]
  rw [if_neg (by simp [radNonzero, h4])]
  norm_num

/-- The four radii of a search that doubles its guesses. -/
example : aimRims (fun _ _ p => .ok (2 * p)) false ⟨(0, 0), (0, 3)⟩ =
    .ok ⟨(-24, -12), (12, 6)⟩ := by
  simp [aimRims, bind, Except.bind, pure, Except.pure]
  norm_num

end RayOpt
