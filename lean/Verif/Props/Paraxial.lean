import Verif.Lemmas.Paraxial
import Verif.Props.Placement

/-!
Properties C13 (paraxial and Gaussian part), C17, C18, C20, C21: paraxial propagation.
-/

namespace RayOpt

open Matrix Parax Sys V3

/-! ## C13 -/

/-- C13 (paraxial): propagating over `start..stop` is propagating over `start..m` and then from the
last state over `m..stop`; also failure (`none`) agrees. -/
theorem c13_paraxial_split (sys : List Elem) (yu : PVec) (n l : ℝ) (start m : ℕ)
    (stop : Option ℤ) (h1 : start ≤ m) (h2 : m ≤ pyStop sys.length stop) :
    propagateParaxial sys yu n l start stop =
      (propagateParaxial sys yu n l start (some m)).bind fun o1 =>
        (propagateParaxial sys (o1.getLast?.getD (yu, n)).1 (o1.getLast?.getD (yu, n)).2 l m
          stop).map fun o2 => o1 ++ o2 := by
  unfold propagateParaxial
  rw [pySlice_append sys start m stop h1 h2, scanM_append]

/-- C13 (Gaussian). -/
theorem c13_gaussian_split (sys : List Elem) (q : QM) (n l : ℝ) (start m : ℕ)
    (stop : Option ℤ) (h1 : start ≤ m) (h2 : m ≤ pyStop sys.length stop) :
    propagateGaussian sys q n l start stop =
      (propagateGaussian sys q n l start (some m)).bind fun o1 =>
        (propagateGaussian sys (o1.getLast?.getD (q, n)).1 (o1.getLast?.getD (q, n)).2 l m
          stop).map fun o2 => o1 ++ o2 := by
  unfold propagateGaussian
  rw [pySlice_append sys start m stop h1 h2, scanM_append]

/-- C13: one result per traversed element. -/
theorem c13_paraxial_count (sys : List Elem) (yu : PVec) (q : QM) (n l : ℝ) (start : ℕ)
    (stop : Option ℤ) (hs : start ≤ sys.length) :
    (∀ o, propagateParaxial sys yu n l start stop = some o →
      o.length = pyStop sys.length stop - start) ∧
    (∀ o, propagateGaussian sys q n l start stop = some o →
      o.length = pyStop sys.length stop - start) := by
  constructor
  · intro o h
    rw [scanM_length _ _ _ _ h, pySlice_length _ _ hs]
  · intro o h
    rw [scanM_length _ _ _ _ h, pySlice_length _ _ hs]

/-! ## C17 -/

/-- When the paraxial matrix of an element is a finite matrix: the index before is not zero; for a
surface with a material the tilt is below grazing and, if refracting, not beyond total internal
reflection; the list of aspheric coefficients is not empty. -/
theorem c17_defined (e : Elem) (n0 l : ℝ) (hn : n0 ≠ 0)
    (hsh : ∀ sh, e.shape = some sh → sh.aspherics ≠ some [] ∧
      ∀ m, e.mat = some m → Real.cos e.tf.angles.x ≠ 0 ∧
        (m.mirror = false → m.index l ≠ 0 ∧
          n0 ^ 2 * Real.sin e.tf.angles.x ^ 2 < m.index l ^ 2)) :
    ∃ nm, e.paraxialMatrix n0 l = some nm := by
  unfold Elem.paraxialMatrix
  rw [if_neg hn]
  cases hs : e.shape with
  | none => exact ⟨_, rfl⟩
  | some sh =>
    obtain ⟨ha, hm⟩ := hsh sh hs
    have hc : ∃ c, sh.paraxCurv = some c := by
      unfold Shape.paraxCurv
      match h : sh.aspherics with
      | none => exact ⟨_, rfl⟩
      | some [] => exact absurd h ha
      | some (a :: as) => exact ⟨_, rfl⟩
    obtain ⟨c, hc⟩ := hc
    simp only [Elem.surfMat, hc, Option.bind_some]
    cases hmat : e.mat with
    | none => exact ⟨_, rfl⟩
    | some m =>
      obtain ⟨h1, h2⟩ := hm m hmat
      simp only
      by_cases hmir : m.mirror = true
      · simp [hmir, h1]
      · obtain ⟨h3, h4⟩ := h2 (by simpa using hmir)
        have hN : e.paraxN n0 l = m.index l := by simp [Elem.paraxN, Elem.index?, hs, hmat]
        rw [hN, if_neg hmir, if_neg]
        · exact ⟨_, rfl⟩
        · push Not
          refine ⟨div_ne_zero h3 hn, h1, ?_⟩
          have hsc := Real.sin_sq_add_cos_sq e.tf.angles.x
          have : (m.index l / n0) ^ 2 + Real.cos e.tf.angles.x ^ 2 - 1
              = (m.index l ^ 2 - n0 ^ 2 * Real.sin e.tf.angles.x ^ 2) / n0 ^ 2 := by
            field_simp; nlinarith
          rw [this]
          apply div_pos (by linarith)
          positivity

theorem matrices_action (l : ℝ) (es : List Elem) (n : ℝ) (ms : List (ℝ × PM))
    (h : matricesFrom l es n = some ms) (yu : PVec) :
    ∃ out, scanM (fun e s => e.propagateParaxial s.1 s.2 l) es (yu, n) = some out ∧
      out.length = ms.length ∧
      ∀ j, out[j]? = (ms[j]?).map fun nm => ((accumulate (ms.take (j + 1))).2 *ᵥ yu, nm.1) := by
  induction es generalizing n ms yu with
  | nil => simp [matricesFrom] at h; subst h; exact ⟨[], rfl, rfl, by simp⟩
  | cons e es ih =>
    simp only [matricesFrom, Option.bind_eq_some_iff, Option.map_eq_some_iff] at h
    obtain ⟨nm, hnm, r, hr, rfl⟩ := h
    obtain ⟨out, ho, hl, hg⟩ := ih nm.1 r hr (nm.2 *ᵥ yu)
    refine ⟨(nm.2 *ᵥ yu, nm.1) :: out, ?_, by simp [hl], ?_⟩
    · simp only [scanM, Elem.propagateParaxial, hnm, Option.map_some, Option.bind_some]
      rw [Option.map_eq_some_iff]
      exact ⟨out, ho, rfl⟩
    · intro j
      have hacc : ∀ t : List (ℝ × PM), (accumulate (nm :: t)).2 = (accumulate t).2 * nm.2 := by
        intro t
        have := accumulate_append [nm] t
        rw [List.singleton_append] at this
        rw [this]; simp [accumulate]
      cases j with
      | zero => simp [hacc]; simp [accumulate]
      | succ j =>
        simp only [List.getElem?_cons_succ, hg, List.take_succ_cons, hacc, mulVec_mulVec]

/-- C17: the system matrix applied to a ray is the last result of propagating the ray; the result
at every earlier surface is the matrix up to that surface applied to the ray. -/
theorem c17_action (sys : List Elem) (l : ℝ) (start : ℕ) (stop : Option ℤ) (n : ℝ) (M : PM)
    (h : paraxialMatrix sys l start stop = some (n, M)) (hne : start < pyStop sys.length stop)
    (yu : PVec) :
    ∃ out, propagateParaxial sys yu (refractiveIndex sys l (start - 1 : ℤ)) l start stop = some out
      ∧ out.getLast? = some (M *ᵥ yu, n) := by
  unfold paraxialMatrix at h
  rw [Option.map_eq_some_iff] at h
  obtain ⟨ms, hms, hacc⟩ := h
  unfold paraxialMatrices at hms
  obtain ⟨out, ho, hl, hg⟩ := matrices_action l _ _ ms hms yu
  refine ⟨out, ho, ?_⟩
  have hlen : out.length = pyStop sys.length stop - start := by
    rw [scanM_length _ _ _ _ ho, pySlice_length _ _ (by have := pyStop_le sys.length stop; omega)]
  rw [List.getLast?_eq_getElem?, hg, hl]
  have hms' : ms.length - 1 < ms.length := by omega
  rw [List.getElem?_eq_getElem hms']
  have hn : ms[ms.length - 1].1 = n := by
    have := accumulate_fst ms
    rw [hacc, List.getLast?_eq_getElem?, List.getElem?_eq_getElem hms'] at this
    simpa using this.symm
  rw [show ms.length - 1 + 1 = ms.length by omega, List.take_length, hacc, Option.map_some, hn]

/-- C17: matrices over adjacent ranges multiply, later range on the left; the index reported for
the whole range is that of the later part (of the earlier part if the later one is empty). -/
theorem c17_split (sys : List Elem) (l : ℝ) (start m : ℕ) (stop : Option ℤ) (hs : 1 ≤ start)
    (h1 : start < m) (h2 : m ≤ pyStop sys.length stop) (n1 n2 : ℝ) (M1 M2 : PM)
    (ha : paraxialMatrix sys l start (some m) = some (n1, M1))
    (hb : paraxialMatrix sys l m stop = some (n2, M2)) :
    paraxialMatrix sys l start stop =
      some (if m < pyStop sys.length stop then n2 else n1, M2 * M1) := by
  have hlen := pyStop_le sys.length stop
  unfold paraxialMatrix at ha hb ⊢
  rw [Option.map_eq_some_iff] at ha hb
  obtain ⟨ma, hma, haa⟩ := ha
  obtain ⟨mb, hmb, hbb⟩ := hb
  unfold paraxialMatrices at hma hmb ⊢
  rw [pySlice_append sys start m stop h1.le h2, matricesFrom_append, hma]
  -- the running index after the first part is the index the second part starts with
  have hstart : ((start : ℤ) - 1) = ((start - 1 : ℕ) : ℤ) := by omega
  have hm' : ((m : ℤ) - 1) = ((m - 1 : ℕ) : ℤ) := by omega
  have e1 : pyStop sys.length (some (m : ℤ)) = m := pyBound_nat _ _ (by omega)
  have hlena : ma.length = m - start := by
    obtain ⟨out, ho, hl, _⟩ := matrices_action l _ _ ma hma 0
    rw [← hl, scanM_length _ _ _ _ ho, pySlice_length _ _ (by omega), e1]
  have hidx : ((ma.getLast?.map Prod.fst).getD (refractiveIndex sys l ((start : ℤ) - 1)))
      = refractiveIndex sys l ((m : ℤ) - 1) := by
    rw [hstart] at hma
    have hlast : ma.length - 1 < ma.length := by omega
    rw [List.getLast?_eq_getElem?, List.getElem?_eq_getElem hlast, Option.map_some,
      Option.getD_some]
    rw [matricesFrom_index l sys (start - 1) _ (fun j e hj => by
      have := pySlice_sub sys start _ j e hj
      rw [show start - 1 + 1 + j = start + j by omega]; exact this) ma hma (ma.length - 1) _
      (List.getElem?_eq_getElem hlast)]
    congr 1
    omega
  rw [Option.bind_some, hidx, hmb]
  simp only [Option.map_some]
  congr 1
  rw [accumulate_append, hbb, haa]
  have hlenb : mb.length = pyStop sys.length stop - m := by
    obtain ⟨out, ho, hl, _⟩ := matrices_action l _ _ mb hmb 0
    rw [← hl, scanM_length _ _ _ _ ho, pySlice_length _ _ (by omega)]
  congr 1
  split
  · rename_i hlt
    have hlast : mb.length - 1 < mb.length := by omega
    have := accumulate_fst mb
    rw [hbb] at this
    rw [List.getLast?_eq_getElem?, List.getElem?_eq_getElem hlast] at this ⊢
    simpa using this.symm
  · have : mb = [] := List.length_eq_zero_iff.mp (by omega)
    rw [this]; rfl

/-! ## C20 -/

/-- Specification: surface `e` has the index `n` at wavelength `l`: it is a refracting or
reflecting surface with a material of that index. -/
def HasIndex (e : Elem) (l n : ℝ) : Prop :=
  ∃ sh m, e.shape = some sh ∧ e.material = some (some m) ∧ m.index l = n

theorem index?_iff (e : Elem) (l n : ℝ) : e.index? l = some n ↔ HasIndex e l n := by
  unfold Elem.index? HasIndex Elem.mat
  cases hs : e.shape with
  | none => simp
  | some sh =>
    cases hm : e.material with
    | none => simp
    | some m => cases m <;> simp

/-- C20: the index of a space is that of the closest surface at or before it that has a material,
and 1 if there is none. -/
theorem c20_closest (sys : List Elem) (l : ℝ) (i : ℕ) :
    (∃ (j : ℕ) (e : Elem), j ≤ i ∧ sys[j]? = some e ∧ HasIndex e l (refractiveIndex sys l i) ∧
      ∀ (k : ℕ) (e' : Elem), j < k → k ≤ i → sys[k]? = some e' → ∀ n, ¬ HasIndex e' l n) ∨
    (refractiveIndex sys l i = 1 ∧
      ∀ (k : ℕ) (e' : Elem), k ≤ i → sys[k]? = some e' → ∀ n, ¬ HasIndex e' l n) := by
  induction i with
  | zero =>
    rw [refractiveIndex_nat]
    cases hs : sys[0]? with
    | none =>
      right
      have : sys = [] := by cases sys with | nil => rfl | cons a b => simp at hs
      subst this
      exact ⟨rfl, by simp⟩
    | some e =>
      have htake : sys.take 1 = [e] := by
        cases sys with
        | nil => simp at hs
        | cons a b => simp at hs; simp [hs]
      have : List.findSome? (fun e => e.index? l) (List.take (0 + 1) sys).reverse = e.index? l := by
        rw [zero_add, htake]; simp [List.findSome?_cons]; cases e.index? l <;> rfl
      rw [this]
      cases hi : e.index? l with
      | some n =>
        left
        exact ⟨0, e, le_refl _, hs, by simpa using (index?_iff e l n).mp hi,
          fun k _ h1 h2 => by omega⟩
      | none =>
        right
        refine ⟨rfl, fun k e' hk he n hn => ?_⟩
        have : k = 0 := by omega
        subst this
        rw [hs] at he; cases he
        rw [(index?_iff e l n).mpr hn] at hi; cases hi
  | succ i ih =>
    cases hs : sys[i + 1]? with
    | none =>
      have hlen : sys.length ≤ i + 1 := by rw [List.getElem?_eq_none_iff] at hs; exact hs
      have heq : refractiveIndex sys l ((i + 1 : ℕ) : ℤ) = refractiveIndex sys l i := by
        rw [refractiveIndex_nat, refractiveIndex_nat, List.take_of_length_le (by omega),
          List.take_of_length_le (by omega)]
      rw [heq]
      have hk : ∀ (k : ℕ) (e' : Elem), k ≤ i + 1 → sys[k]? = some e' → k ≤ i := by
        intro k e' h1 h2
        have := (List.getElem?_eq_some_iff.mp h2).1
        omega
      rcases ih with ⟨j, e, h1, h2, h3, h4⟩ | ⟨h1, h2⟩
      · exact Or.inl ⟨j, e, by omega, h2, h3, fun k e' a b c => h4 k e' a (hk k e' b c) c⟩
      · exact Or.inr ⟨h1, fun k e' b c => h2 k e' (hk k e' b c) c⟩
    | some e =>
      rw [refractiveIndex_succ sys l i e hs]
      cases hi : e.index? l with
      | some n =>
        left
        exact ⟨i + 1, e, le_refl _, hs, by simpa using (index?_iff e l n).mp hi,
          fun k _ h1 h2 => by omega⟩
      | none =>
        have hno : ∀ (k : ℕ) (e' : Elem), k = i + 1 → sys[k]? = some e' →
            ∀ n, ¬ HasIndex e' l n := by
          intro k e' hk he n hn
          subst hk
          rw [hs] at he; cases he
          rw [(index?_iff e l n).mpr hn] at hi; cases hi
        simp only [Option.getD_none]
        rcases ih with ⟨j, e0, h1, h2, h3, h4⟩ | ⟨h1, h2⟩
        · left
          refine ⟨j, e0, by omega, h2, h3, fun k e' a b c => ?_⟩
          by_cases hk : k = i + 1
          · exact hno k e' hk c
          · exact h4 k e' a (by omega) c
        · right
          refine ⟨h1, fun k e' b c => ?_⟩
          by_cases hk : k = i + 1
          · exact hno k e' hk c
          · exact h2 k e' (by omega) c

/-- C20: the index depends only on the elements at or before `i`, and the negative index `-1` names
the last element. -/
theorem c20_prefix (sys sys' : List Elem) (l : ℝ) (i : ℕ)
    (h : sys.take (i + 1) = sys'.take (i + 1)) :
    refractiveIndex sys l i = refractiveIndex sys' l i ∧
    (sys ≠ [] → refractiveIndex sys l (-1) = refractiveIndex sys l ((sys.length - 1 : ℕ) : ℤ)) := by
  constructor
  · rw [refractiveIndex_nat, refractiveIndex_nat, h]
  · intro hne
    have hpos : 0 < sys.length := List.length_pos_iff.mpr hne
    rw [refractiveIndex_nat]
    unfold refractiveIndex sliceDown
    rw [if_pos (by norm_num)]
    congr 4
    omega

/-- C20: the index reported by the paraxial matrices and by the paraxial propagation at every
surface is the index of the space behind it. -/
theorem c20_paraxial (sys : List Elem) (l : ℝ) (start : ℕ) (stop : Option ℤ) (hs : 1 ≤ start)
    (ms : List (ℝ × PM)) (h : paraxialMatrices sys l start stop = some ms) :
    (∀ (j : ℕ) nm, ms[j]? = some nm → nm.1 = refractiveIndex sys l ((start + j : ℕ) : ℤ)) ∧
    (∀ yu, ∃ out, propagateParaxial sys yu (refractiveIndex sys l ((start : ℤ) - 1)) l start stop
        = some out ∧
      ∀ (j : ℕ) x, out[j]? = some x → x.2 = refractiveIndex sys l ((start + j : ℕ) : ℤ)) := by
  unfold paraxialMatrices at h
  have hstart : ((start : ℤ) - 1) = ((start - 1 : ℕ) : ℤ) := by omega
  rw [hstart] at h ⊢
  have key := matricesFrom_index l sys (start - 1) _ (fun j e hj => by
      have := pySlice_sub sys start _ j e hj
      rw [show start - 1 + 1 + j = start + j by omega]; exact this) ms h
  rw [show start - 1 + 1 = start by omega] at key
  refine ⟨key, fun yu => ?_⟩
  obtain ⟨out, ho, hl, hg⟩ := matrices_action l _ _ ms h yu
  refine ⟨out, ho, fun j x hx => ?_⟩
  rw [hg] at hx
  rw [Option.map_eq_some_iff] at hx
  obtain ⟨nm, hnm, rfl⟩ := hx
  exact key j nm hnm

/-- The excluded case `start = 0`: the loop then starts with the index behind the last element. -/
theorem c20_start_zero (sys : List Elem) (l : ℝ) (stop : Option ℤ) (hne : sys ≠ []) :
    paraxialMatrices sys l 0 stop = matricesFrom l (pySlice sys 0 stop)
      (refractiveIndex sys l ((sys.length - 1 : ℕ) : ℤ)) := by
  unfold paraxialMatrices
  rw [zero_sub, (c20_prefix sys sys l 0 rfl).2 hne]

/-! ## C18 -/

/-- The optical invariant of two paraxial rays: `y1.u2 - u1.y2` over both transverse axes. -/
def opticalInvariant (v w : PVec) : ℝ :=
  (v (.inl 0) * w (.inr 0) + v (.inl 1) * w (.inr 1))
    - (v (.inr 0) * w (.inl 0) + v (.inr 1) * w (.inl 1))

theorem invariant_eq_J (v w : PVec) : opticalInvariant v w = -(v ⬝ᵥ ((J (Fin 2) ℝ) *ᵥ w)) := by
  unfold opticalInvariant J
  simp [dotProduct, Matrix.mulVec, Fintype.sum_sum_type, Fin.sum_univ_two, fromBlocks,
    Matrix.one_apply]
  ring

theorem symplectic_invariant {M : PM} (h : M ∈ symplecticGroup (Fin 2) ℝ) (v w : PVec) :
    opticalInvariant (M *ᵥ v) (M *ᵥ w) = opticalInvariant v w := by
  rw [invariant_eq_J, invariant_eq_J]
  have := SymplecticGroup.mem_iff'.mp h
  rw [mulVec_mulVec, dotProduct_mulVec, vecMul_mulVec, ← dotProduct_mulVec]
  congr 2
  rw [← Matrix.mul_assoc, this]

/-- Surfaces are not turned about their own axis, up to multiples of 90 degrees. -/
def NoRoll (es : List Elem) : Prop :=
  ∀ e ∈ es, e.shape.isSome → Real.sin (2 * e.tf.angles.z) = 0

theorem matricesFrom_symplectic (l : ℝ) (es : List Elem) (hes : NoRoll es) (n : ℝ)
    (ms : List (ℝ × PM)) (h : matricesFrom l es n = some ms) :
    ∀ nm ∈ ms, nm.2 ∈ symplecticGroup (Fin 2) ℝ := by
  induction es generalizing n ms with
  | nil => simp [matricesFrom] at h; subst h; simp
  | cons e es ih =>
    simp only [matricesFrom, Option.bind_eq_some_iff, Option.map_eq_some_iff] at h
    obtain ⟨nm, hnm, r, hr, rfl⟩ := h
    intro x hx
    rcases List.mem_cons.mp hx with rfl | hx
    · exact paraxialMatrix_symplectic (hes e (by simp)) hnm
    · exact ih (fun e he => hes e (by simp [he])) nm.1 r hr x hx

theorem accumulate_symplectic (ms : List (ℝ × PM))
    (h : ∀ nm ∈ ms, nm.2 ∈ symplecticGroup (Fin 2) ℝ) :
    (accumulate ms).2 ∈ symplecticGroup (Fin 2) ℝ := by
  induction ms using List.reverseRecOn with
  | nil => exact Submonoid.one_mem _
  | append_singleton ms m ih =>
    rw [accumulate_append]
    refine Submonoid.mul_mem _ ?_ (ih fun nm hn => h nm (by simp [hn]))
    simpa [accumulate] using h m (by simp)

/-- C18: the paraxial matrix of every range of a system without rolled surfaces (arbitrary tilt,
mirrors, refraction, aspherics) is symplectic and has determinant one. -/
theorem c18_symplectic (sys : List Elem) (l : ℝ) (start : ℕ) (stop : Option ℤ) (hes : NoRoll sys)
    (n : ℝ) (M : PM) (h : paraxialMatrix sys l start stop = some (n, M)) :
    M ∈ symplecticGroup (Fin 2) ℝ ∧ M.det = 1 := by
  unfold paraxialMatrix at h
  rw [Option.map_eq_some_iff] at h
  obtain ⟨ms, hms, hacc⟩ := h
  have hM : M ∈ symplecticGroup (Fin 2) ℝ := by
    have := accumulate_symplectic ms (matricesFrom_symplectic l _
      (fun e he => hes e (List.mem_of_mem_take (List.mem_of_mem_drop he))) _ ms hms)
    rwa [hacc] at this
  exact ⟨hM, SymplecticGroup.det_eq_one hM⟩

/-- C18: the optical invariant of any two paraxial rays is the same behind every surface. -/
theorem c18_invariant (sys : List Elem) (l : ℝ) (start : ℕ) (stop : Option ℤ) (hes : NoRoll sys)
    (n : ℝ) (v w : PVec) (ov ow : List (PVec × ℝ))
    (hv : propagateParaxial sys v n l start stop = some ov)
    (hw : propagateParaxial sys w n l start stop = some ow) (j : ℕ) (x y : PVec × ℝ)
    (hx : ov[j]? = some x) (hy : ow[j]? = some y) :
    x.2 = y.2 ∧ opticalInvariant x.1 y.1 = opticalInvariant v w := by
  unfold propagateParaxial at hv hw
  have hes' : NoRoll (pySlice sys start stop) :=
    fun e he => hes e (List.mem_of_mem_take (List.mem_of_mem_drop he))
  generalize pySlice sys start stop = es at hv hw hes'
  induction es generalizing n v w ov ow j with
  | nil => simp [scanM] at hv; subst hv; simp at hx
  | cons e es ih =>
    simp only [scanM, Option.bind_eq_some_iff, Option.map_eq_some_iff,
      Elem.propagateParaxial] at hv hw
    obtain ⟨s', ⟨nm, hnm, rfl⟩, r, hr, rfl⟩ := hv
    obtain ⟨s2, ⟨nm2, hnm2, rfl⟩, r2, hr2, rfl⟩ := hw
    rw [hnm] at hnm2; cases hnm2
    have hsym := paraxialMatrix_symplectic (hes' e (by simp)) hnm
    cases j with
    | zero =>
      simp at hx hy; subst hx hy
      exact ⟨rfl, symplectic_invariant hsym v w⟩
    | succ j =>
      simp at hx hy
      have := ih nm.1 (nm.2 *ᵥ v) (nm.2 *ᵥ w) r r2 j hx hy hr hr2
        (fun e he => hes' e (by simp [he]))
      rw [symplectic_invariant hsym] at this
      exact this

/-- C18, the excluded case: the determinant of a surface rolled by `phi` is `cos(2 phi)^4` because
`r1` of the code is not a rotation; so the matrix is symplectic only without roll. -/
theorem c18_roll_det {e : Elem} {n0 l : ℝ} {nm : ℝ × PM} (hs : e.shape.isSome)
    (h : e.paraxialMatrix n0 l = some nm) :
    nm.2.det = Real.cos (2 * e.tf.angles.z) ^ 4 ∧
    (nm.2 ∈ symplecticGroup (Fin 2) ℝ ↔ Real.sin (2 * e.tf.angles.z) = 0) := by
  have hdet : nm.2.det = Real.cos (2 * e.tf.angles.z) ^ 4 := by
    unfold Elem.paraxialMatrix at h
    split at h
    · cases h
    · split at h
      · rename_i h'; rw [h'] at hs; cases hs
      · rename_i sh hsh
        rw [Option.map_eq_some_iff] at h
        obtain ⟨m, hm, rfl⟩ := h
        have h1 := SymplecticGroup.det_eq_one (surfMat_symplectic hm)
        have h2 := SymplecticGroup.det_eq_one (transfer_symplectic e.tf.distance n0)
        have h3 : (rotMat e.tf.angles.z).det = Real.cos (2 * e.tf.angles.z) ^ 2 := by
          unfold rotMat
          rw [det_fromBlocks_zero₂₁]
          have : (rotBlock e.tf.angles.z).det = -Real.cos (2 * e.tf.angles.z) := by
            rw [det_fin_two, Real.cos_two_mul]
            have := Real.sin_sq_add_cos_sq e.tf.angles.z
            simp [rotBlock]; nlinarith
          rw [this]; ring
        simp only [det_mul, det_transpose, h1, h2, h3]; ring
  refine ⟨hdet, fun hsym => ?_, fun h0 => paraxialMatrix_symplectic (fun _ => h0) h⟩
  have h1 := SymplecticGroup.det_eq_one hsym
  rw [hdet] at h1
  have h2 := Real.sin_sq_add_cos_sq (2 * e.tf.angles.z)
  have h3 : (Real.cos (2 * e.tf.angles.z) ^ 2) ^ 2 = 1 := by rw [← pow_mul]; exact h1
  have h4 : Real.cos (2 * e.tf.angles.z) ^ 2 = 1 := by
    have hnn := sq_nonneg (Real.cos (2 * e.tf.angles.z))
    nlinarith
  have h5 : Real.sin (2 * e.tf.angles.z) ^ 2 = 0 := by linarith
  exact pow_eq_zero_iff (two_ne_zero) |>.mp h5

/-! ## C21 -/

/-- C21, real trace: the index after a mirror is the index before it. -/
theorem c21_geometric (nwt : Shape.NewtonFn) (e : Elem) (sh : Shape) (m : Material)
    (hs : e.shape = some sh) (hm : e.material = some (some m)) (hmir : m.mirror = true)
    (y u : Option V3) (n0 l : ℝ) (clp : Bool) :
    (e.propagate nwt y u n0 l clp).n = n0 := by
  simp [Elem.propagate, hs, hm, Elem.getNMu, hmir]

/-- C21, paraxial trace: the index after a mirror is the nominal index of the mirror material, so
the two traces agree exactly if this is the index before the mirror. -/
theorem c21_agree (nwt : Shape.NewtonFn) (e : Elem) (sh : Shape) (m : Material)
    (hs : e.shape = some sh) (hm : e.material = some (some m)) (hmir : m.mirror = true)
    (y u : Option V3) (n0 l : ℝ) (clp : Bool) (nm : ℝ × PM)
    (h : e.paraxialMatrix n0 l = some nm) :
    nm.1 = (e.propagate nwt y u n0 l clp).n ↔ m.index l = n0 := by
  rw [c21_geometric nwt e sh m hs hm hmir, paraxialMatrix_fst h]
  simp [Elem.paraxN, Elem.index?, hs, Elem.mat, hm]

/-- The mirror material of the code: `Material(name="mirror", mirror=True)` has index 1
(rayopt/material.py 127-129, 334). -/
def mirrorMaterial : Material := ⟨true, false, fun _ => 1⟩

/-- A flat mirror. -/
noncomputable def flatMirror : Elem :=
  ⟨Transform.init 1 ez 0 none, .fin 1, some ⟨0, 0, none, false⟩, some (some mirrorMaterial)⟩

theorem flatMirror_angles : flatMirror.tf.angles = 0 := Transform.update_angles _ _ _

/-- C21, violation: a mirror immersed in glass of index 3/2 is followed by index 3/2 in the real
trace and by index 1 in the paraxial trace. -/
theorem c21_violation (nwt : Shape.NewtonFn) (y u : Option V3) (l : ℝ) (clp : Bool) :
    (flatMirror.propagate nwt y u (3 / 2) l clp).n = 3 / 2 ∧
    ∃ M, flatMirror.paraxialMatrix (3 / 2) l = some (1, M) := by
  refine ⟨c21_geometric nwt flatMirror _ mirrorMaterial rfl rfl rfl _ _ _ _ _, ?_⟩
  obtain ⟨nm, h⟩ := c17_defined flatMirror (3 / 2) l (by norm_num) (by
    intro sh hsh
    cases hsh
    refine ⟨by simp, fun m hm => ?_⟩
    have : m = mirrorMaterial := by simpa [flatMirror, Elem.mat] using hm.symm
    subst this
    refine ⟨by rw [flatMirror_angles]; simp, fun h => by cases h⟩)
  refine ⟨nm.2, ?_⟩
  rw [h]
  congr 1
  apply Prod.ext
  · rw [paraxialMatrix_fst h]; rfl
  · rfl

/-! ## Non-vacuity -/

/-- Glass of index 3/2. -/
noncomputable def glass : Material := ⟨false, true, fun _ => 3 / 2⟩

/-- Vacuum. -/
noncomputable def vacuum : Material := ⟨false, false, fun _ => 1⟩

/-- A biconvex lens between an object and an image plane. -/
noncomputable def lensSystem : List Elem :=
  [⟨Transform.init 0 ez 0 none, .fin 1, some ⟨0, 0, none, false⟩, some (some vacuum)⟩,
   ⟨Transform.init 5 ez 0 none, .fin 1, some ⟨1 / 10, 0, none, false⟩, some (some glass)⟩,
   ⟨Transform.init 1 ez 0 none, .fin 1, some ⟨-1 / 10, 0, some [0, 1], false⟩, some (some vacuum)⟩,
   ⟨Transform.init 9 ez 0 none, .fin 1, some ⟨0, 0, none, false⟩, some none⟩]

theorem untilted_defined (d : ℝ) (R : Radius) (sh : Shape) (m : Option Material) (n0 l : ℝ)
    (hn : n0 ≠ 0) (ha : sh.aspherics ≠ some []) (hm : ∀ m', m = some m' → m'.index l ≠ 0) :
    ∃ M, (⟨Transform.init d ez 0 none, R, some sh, some m⟩ : Elem).paraxialMatrix n0 l
      = some ((m.map fun m => m.index l).getD n0, M) := by
  have hang : (Transform.init d ez 0 none).angles = 0 := Transform.update_angles _ _ _
  obtain ⟨nm, h⟩ := c17_defined (⟨Transform.init d ez 0 none, R, some sh, some m⟩ : Elem) n0 l hn
    (by
      intro sh' hsh'
      cases hsh'
      refine ⟨ha, fun m' hm' => ?_⟩
      have hm2 : m = some m' := by simpa [Elem.mat] using hm'
      have hi := hm m' hm2
      simp only [hang]
      refine ⟨by simp, fun _ => ⟨hi, by simp; positivity⟩⟩)
  refine ⟨nm.2, ?_⟩
  rw [h]
  congr 1
  apply Prod.ext
  · rw [paraxialMatrix_fst h]; cases m <;> rfl
  · rfl

theorem lensSystem_matrices (l : ℝ) : ∃ ms, paraxialMatrices lensSystem l 1 none = some ms ∧
    ms.length = 3 := by
  have h0 : refractiveIndex lensSystem l 0 = 1 := by
    have := refractiveIndex_nat lensSystem l 0
    simp only [Nat.cast_zero] at this
    rw [this]
    simp [lensSystem, Elem.index?, Elem.mat, vacuum]
  obtain ⟨M1, h1⟩ := untilted_defined 5 (.fin 1) ⟨1 / 10, 0, none, false⟩ (some glass) 1 l
    (by norm_num) (by simp) (by intro m hm; cases hm; simp [glass])
  obtain ⟨M2, h2⟩ := untilted_defined 1 (.fin 1) ⟨-1 / 10, 0, some [0, 1], false⟩ (some vacuum)
    (3 / 2) l (by norm_num) (by simp) (by intro m hm; cases hm; simp [vacuum])
  obtain ⟨M3, h3⟩ := untilted_defined 9 (.fin 1) ⟨0, 0, none, false⟩ none 1 l
    (by norm_num) (by simp) (by intro m hm; cases hm)
  simp only [Option.map_some, Option.getD_some, glass, vacuum, Option.map_none,
    Option.getD_none] at h1 h2 h3
  refine ⟨[(3 / 2, M1), (1, M2), (1, M3)], ?_, rfl⟩
  unfold paraxialMatrices
  have hsl : pySlice lensSystem 1 none = lensSystem.tail := by
    simp [pySlice, pyStop, pyBound, lensSystem]
  rw [hsl, show (1 : ℤ) - 1 = 0 by norm_num, h0]
  simp only [lensSystem, List.tail_cons, matricesFrom]
  simp only [glass, vacuum]
  rw [h1]
  simp only [Option.bind_some, h2, h3, Option.map_some]

/-- The hypotheses of `c17_action`, `c18_symplectic`, `c20_paraxial` are met by a lens. -/
example (l : ℝ) : (∃ n M, paraxialMatrix lensSystem l 1 none = some (n, M)) ∧
    1 < pyStop lensSystem.length none ∧ NoRoll lensSystem := by
  obtain ⟨ms, h, _⟩ := lensSystem_matrices l
  refine ⟨⟨(accumulate ms).1, (accumulate ms).2, ?_⟩, by simp [pyStop, lensSystem], ?_⟩
  · unfold paraxialMatrix; rw [h]; rfl
  · intro e he _
    have hang : ∀ d, (Transform.init d ez 0 none).angles = 0 := fun d =>
      Transform.update_angles _ _ _
    simp only [lensSystem, List.mem_cons, List.not_mem_nil, or_false] at he
    rcases he with rfl | rfl | rfl | rfl <;> simp [hang]

end RayOpt
