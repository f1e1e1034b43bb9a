import Verif.Model.Analysis
import Mathlib.Tactic

/-!
C101: `Analysis` rejects unknown options, adjusts the system, and gives the texts and the figures asked
for in a fixed order, with every field in a row of its own.
-/

namespace RayOpt.Analysis

variable {Y P T : Type}

/-- The value an option has: the last one given, or the default. -/
noncomputable def opt (kwargs : List (String × Val)) (k : String) : Option Val :=
  (kwargs.reverse ++ classAttr).lookup k

/-- Specification: whether an option is in effect: it exists, and is neither `False` nor zero. -/
noncomputable def isOn (kwargs : List (String × Val)) (k : String) : Bool := by
  classical exact decide (∃ v, opt kwargs k = some v ∧ v ≠ .bool false ∧ v ≠ .int 0 ∧ v ≠ .num 0)

theorem isOn_eq (kwargs : List (String × Val)) (k : String) :
    isOn kwargs k = ((opt kwargs k).map Val.truthy).getD false := by
  classical
  unfold isOn
  rcases opt kwargs k with _ | (b | i | x | _ | _)
  · simp
  · cases b <;> simp [Val.truthy]
  all_goals simp [Val.truthy]

/-- All names are attributes. -/
def Known (kwargs : List (String × Val)) : Prop := ∀ p ∈ kwargs, p.1 ∈ classAttr.map Prod.fst

theorem lookup_isSome {α : Type} (l : List (String × α)) (k : String) :
    (l.lookup k).isSome = true ↔ k ∈ l.map Prod.fst := by
  induction l with
  | nil => simp
  | cons p l ih =>
    obtain ⟨k', v⟩ := p
    rw [List.lookup_cons]
    by_cases h : k = k'
    · simp [h]
    · rw [beq_eq_false_iff_ne.mpr h]
      simp only [ih, List.map_cons, List.mem_cons, h, false_or]

theorem setOptions_known (kw : List (String × Val)) : ∀ a : Attrs,
    (∀ p ∈ kw, p.1 ∈ a.map Prod.fst) → setOptions a kw = .ok (kw.reverse ++ a) := by
  induction kw with
  | nil => intro a _; rfl
  | cons p kw ih =>
    intro a h
    obtain ⟨k, v⟩ := p
    have hk := (lookup_isSome a k).mpr (h (k, v) (by simp))
    obtain ⟨w, hw⟩ := Option.isSome_iff_exists.mp hk
    simp only [setOptions, Attrs.get, hw]
    rw [ih ((k, v) :: a) (by
      intro q hq
      have := h q (by simp [hq])
      simp only [List.map_cons, List.mem_cons]
      exact .inr this)]
    simp

theorem setOptions_unknown (k : String) (v : Val) (r : List (String × Val)) :
    ∀ (kw : List (String × Val)) (a : Attrs),
    (∀ p ∈ kw, p.1 ∈ a.map Prod.fst) → k ∉ a.map Prod.fst →
    setOptions a (kw ++ (k, v) :: r) = .error (.noSuchOption k) := by
  intro kw
  induction kw with
  | nil =>
    intro a _ hk
    have : a.lookup k = none := by
      by_contra h
      exact hk ((lookup_isSome a k).mp (Option.isSome_iff_ne_none.mpr h))
    simp [setOptions, Attrs.get, this]
  | cons p kw ih =>
    intro a h hk
    obtain ⟨k', w⟩ := p
    have hk' := (lookup_isSome a k').mpr (h (k', w) (by simp))
    obtain ⟨x, hx⟩ := Option.isSome_iff_exists.mp hk'
    simp only [List.cons_append, setOptions, Attrs.get, hx]
    apply ih
    · intro q hq
      have := h q (by simp [hq])
      simp only [List.map_cons, List.mem_cons]
      exact .inr this
    · intro hc
      simp only [List.map_cons, List.mem_cons] at hc
      rcases hc with rfl | hc
      · exact hk (h (k, w) (by simp))
      · exact hk hc

/-- C101: an option that is not an attribute is rejected by name, before anything is done. -/
theorem c101_unknown (o : Ops Y P T) (fields wavelengths : List ℝ) (s : St Y P)
    (kw r : List (String × Val)) (k : String) (v : Val) (hkw : Known kw)
    (hk : k ∉ classAttr.map Prod.fst) :
    analysis o fields wavelengths (kw ++ (k, v) :: r) s = .error (.noSuchOption k) := by
  unfold analysis
  rw [setOptions_unknown k v r kw classAttr hkw hk]
  rfl

/-- What kind of figure it is. -/
inductive Kind
  | drawing
  | transverse
  | longitudinal
  | spots
  | opds

def kind : Fig → Kind
  | .drawing _ => .drawing
  | .transverse .. => .transverse
  | .longitudinal _ => .longitudinal
  | .spots .. => .spots
  | .opds .. => .opds

/-- The names of the methods: keywords with these names replace them. -/
def methods : List String :=
  ["run", "setup_axes", "post_setup_axes", "pre_setup_fanplot", "pre_setup_xyplot", "transverse",
   "spots", "opds", "longitudinal"]

/-- Keywords `Analysis` is meant for: options that exist, no methods, and a positive number of defocus
positions. -/
structure Fair (kwargs : List (String × Val)) : Prop where
  known : Known kwargs
  options : ∀ p ∈ kwargs, p.1 ∉ methods
  defocus : ∀ v, ("defocus", v) ∈ kwargs → ∃ n : ℕ, 0 < n ∧ v = .int n

theorem lookup_append_of_notMem {α : Type} (l m : List (String × α)) (k : String)
    (h : k ∉ l.map Prod.fst) : (l ++ m).lookup k = m.lookup k := by
  induction l with
  | nil => rfl
  | cons p l ih =>
    obtain ⟨k', v⟩ := p
    simp only [List.map_cons, List.mem_cons, not_or] at h
    rw [List.cons_append, List.lookup_cons, ih h.2, beq_eq_false_iff_ne.mpr h.1]

theorem lookup_append_cases {α : Type} (l m : List (String × α)) (k : String) (v : α)
    (h : (l ++ m).lookup k = some v) : (k, v) ∈ l ∨ m.lookup k = some v := by
  induction l with
  | nil => exact .inr h
  | cons p l ih =>
    obtain ⟨k', w⟩ := p
    rw [List.cons_append, List.lookup_cons] at h
    by_cases hk : k = k'
    · simp only [hk, beq_self_eq_true] at h
      cases h
      exact .inl (by simp [hk])
    · simp only [beq_eq_false_iff_ne.mpr hk] at h
      rcases ih h with h | h
      · exact .inl (by simp [h])
      · exact .inr h

theorem method_kept {kwargs : List (String × Val)} (h : Fair kwargs) (k : String) (hk : k ∈ methods)
    (hc : classAttr.lookup k = some .method) : opt kwargs k = some .method := by
  unfold opt
  rw [lookup_append_of_notMem _ _ _ (by
    intro hm
    simp only [List.map_reverse, List.mem_reverse, List.mem_map] at hm
    obtain ⟨p, hp, rfl⟩ := hm
    exact h.options p hp hk), hc]

theorem columns_fair {kwargs : List (String × Val)} (h : Fair kwargs) :
    ∃ n : ℕ, 0 < n ∧ opt kwargs "defocus" = some (.int n) := by
  have hs : (opt kwargs "defocus").isSome = true := by
    unfold opt
    rw [lookup_isSome]
    simp [classAttr]
  obtain ⟨v, hv⟩ := Option.isSome_iff_exists.mp hs
  rcases lookup_append_cases _ _ _ _ hv with hm | hm
  · obtain ⟨n, hn, rfl⟩ := h.defocus v (by simpa using hm)
    exact ⟨n, hn, hv⟩
  · have : classAttr.lookup "defocus" = some (.int 5) := by
      simp [classAttr, List.lookup_cons]
    rw [this] at hm
    cases hm
    exact ⟨5, by norm_num, hv⟩

theorem fields_minmax {fields : List ℝ} (h : fields ≠ []) :
    ∃ lo hi : ℝ, fields.minimum = some lo ∧ fields.maximum = some hi := by
  obtain ⟨lo, hlo⟩ := WithTop.ne_top_iff_exists.mp (List.minimum_ne_top_of_ne_nil h)
  obtain ⟨hi, hhi⟩ := WithBot.ne_bot_iff_exists.mp (List.maximum_ne_bot_of_ne_nil h)
  exact ⟨lo, hi, hlo.symm, hhi.symm⟩

/-- C101: the figure of the system is always drawn, with the rays of the smallest and the largest field;
the others follow in a fixed order, each exactly if it is asked for.  The texts are those asked for,
and are printed if that is asked for. -/
theorem c101_figures (o : Ops Y P T) (fields wavelengths : List ℝ) (s : St Y P)
    (kwargs : List (String × Val)) (hk : Fair kwargs) (hf : fields ≠ []) :
    ∃ r, analysis o fields wavelengths kwargs s = .ok r ∧
      r.figures.map kind = [.drawing] ++
        (if isOn kwargs "plot_transverse" then [.transverse] else []) ++
        (if isOn kwargs "plot_longitudinal" then [.longitudinal] else []) ++
        (if isOn kwargs "plot_spots" then [.spots] else []) ++
        (if isOn kwargs "plot_opds" then [.opds] else []) ∧
      (∃ lo hi, r.figures.head? = some (.drawing ([.system] ++
          (if isOn kwargs "plot_paraxial" then [.paraxial] else []) ++
          (if isOn kwargs "plot_gaussian" then [.gaussian] else []) ++
          (if isOn kwargs "plot_full" then [.full] else []) ++ [.clipped lo, .clipped hi])) ∧
        lo ∈ fields ∧ hi ∈ fields ∧ ∀ f ∈ fields, lo ≤ f ∧ f ≤ hi) ∧
      (∀ h, .longitudinal h ∈ r.figures → h ∈ fields ∧ ∀ f ∈ fields, f ≤ h) ∧
      r.texts = (if isOn kwargs "print_system" then [o.strSystem r.st.sys] else []) ++
        (if isOn kwargs "print_paraxial" then [o.strParaxial r.st.parax] else []) ++
        (if isOn kwargs "print_gaussian" then [o.strGaussian r.st.sys] else []) ++
        (if isOn kwargs "print_full" then [o.strFull r.st.sys] else []) ∧
      r.printed = if isOn kwargs "print" then r.texts else [] := by
  have hopt : ∀ k, Attrs.get (kwargs.reverse ++ classAttr) k = opt kwargs k := fun _ => rfl
  have hon : ∀ k, Attrs.on (kwargs.reverse ++ classAttr) k = isOn kwargs k := fun _ => (isOn_eq _ _).symm
  have hrun : opt kwargs "run" = some .method := method_kept hk _ (by simp [methods])
    (by simp [classAttr, List.lookup_cons])
  have ht : opt kwargs "transverse" = some .method := method_kept hk _ (by simp [methods])
    (by simp [classAttr, List.lookup_cons])
  have hl : opt kwargs "longitudinal" = some .method := method_kept hk _ (by simp [methods])
    (by simp [classAttr, List.lookup_cons])
  have hs : opt kwargs "spots" = some .method := method_kept hk _ (by simp [methods])
    (by simp [classAttr, List.lookup_cons])
  have hp : opt kwargs "opds" = some .method := method_kept hk _ (by simp [methods])
    (by simp [classAttr, List.lookup_cons])
  obtain ⟨n, hn, hd⟩ := columns_fair hk
  have hcol : columns (some (.int (n : ℤ))) = .ok n := by
    have h0 : ¬ ((n : ℤ) = 0) := by omega
    have h1 : ¬ ((n : ℤ) < 0) := by omega
    simp [columns, h1]
    omega
  obtain ⟨lo, hi, hlo, hhi⟩ := fields_minmax hf
  have mlo := List.minimum_mem (show fields.minimum = ((lo : ℝ) : WithTop ℝ) from hlo)
  have mhi := List.maximum_mem (show fields.maximum = ((hi : ℝ) : WithBot ℝ) from hhi)
  have hle : ∀ f ∈ fields, lo ≤ f ∧ f ≤ hi := by
    intro f hf'
    have h1 := List.minimum_le_of_mem' hf'
    have h2 := List.le_maximum_of_mem' hf'
    rw [show fields.minimum = ((lo : ℝ) : WithTop ℝ) from hlo] at h1
    rw [show fields.maximum = ((hi : ℝ) : WithBot ℝ) from hhi] at h2
    exact ⟨WithTop.coe_le_coe.mp h1, WithBot.coe_le_coe.mp h2⟩
  have hgd : (Option.getD (fields.maximum) 0 : ℝ) = hi := by rw [hhi]; rfl
  obtain ⟨F, hF⟩ : ∃ F : List Fig, F =
      ([.drawing ([.system] ++
      (if isOn kwargs "plot_paraxial" then [.paraxial] else []) ++
      (if isOn kwargs "plot_gaussian" then [.gaussian] else []) ++
      (if isOn kwargs "plot_full" then [.full] else []) ++ [.clipped lo, .clipped hi])] ++
      (if isOn kwargs "plot_transverse" then
        [.transverse fields.length 3 (curves 3 fields wavelengths)] else []) ++
      (if isOn kwargs "plot_longitudinal" then [.longitudinal hi] else []) ++
      (if isOn kwargs "plot_spots" then [.spots fields.length n (curves n fields wavelengths)]
        else []) ++
      (if isOn kwargs "plot_opds" then
        [.opds fields.length 4 (opdCurves fields (wavelengths.headD 0))] else [])) :=
    ⟨_, rfl⟩
  have hfig : figures (kwargs.reverse ++ classAttr) fields wavelengths = .ok F := by
    rw [hF]
    unfold figures drawing optional Attrs.call
    simp only [hopt, hon, ht, hl, hs, hp, hd, hcol, hlo, hhi]
    cases isOn kwargs "plot_transverse" <;> cases isOn kwargs "plot_longitudinal" <;>
      cases isOn kwargs "plot_spots" <;> cases isOn kwargs "plot_opds" <;> rfl
  refine ⟨⟨adjust o (kwargs.reverse ++ classAttr) s,
    texts o (kwargs.reverse ++ classAttr) (adjust o (kwargs.reverse ++ classAttr) s), F,
    if isOn kwargs "print" then
      texts o (kwargs.reverse ++ classAttr) (adjust o (kwargs.reverse ++ classAttr) s) else []⟩,
    ?_, ?_, ?_, ?_, by simp only [texts, hon], rfl⟩
  · unfold analysis
    rw [setOptions_known kwargs classAttr hk.known]
    simp only [bind, Except.bind, hopt, hrun, hfig, hon]
    rfl
  · simp only [hF, List.map_append, List.map_cons, List.map_nil, kind, apply_ite (List.map kind)]
  · exact ⟨lo, hi, by
      simp only [hF, List.cons_append, List.nil_append, List.head?_cons, List.append_assoc], mlo, mhi, hle⟩
  · intro h hm
    simp only [hF] at hm
    have : h = hi := by
      simp only [List.mem_append, List.mem_singleton, reduceCtorEq, false_or] at hm
      rcases hm with ((hm | hm) | hm) | hm
      all_goals
        split_ifs at hm
        all_goals simp at hm
      exact hm
    rw [this]
    exact ⟨mhi, fun f hf' => (hle f hf').2⟩

/-- C101: the cells of `transverse` and `spots`: field number `i` of `n` is drawn in row `n - 1 - i`,
in every column, once for each of the first seven wavelengths; nothing else is drawn. -/
theorem c101_cells (cols : ℕ) (fields wavelengths : List ℝ) (c : Curve) :
    c ∈ curves cols fields wavelengths ↔
      (∃ i : ℕ, fields[i]? = some c.field ∧ c.row + i + 1 = fields.length) ∧ c.col < cols ∧
      ∃ j : ℕ, wavelengths[j]? = some c.wavelength ∧ ("grbcmyk".toList)[j]? = some c.colour := by
  have hcol : "grbcmyk".toList = colours := by decide +kernel
  rw [hcol]
  obtain ⟨row, col, field, wl, colour⟩ := c
  simp only [curves, fieldRows, List.mem_flatMap, List.mem_map, List.mem_range, Curve.mk.injEq,
    Prod.exists]
  have hrow : ∀ (f : ℝ) (r : ℕ), (f, r) ∈ fields.zip (List.range fields.length).reverse ↔
      ∃ i, fields[i]? = some f ∧ r + i + 1 = fields.length := by
    intro f r
    rw [List.mem_iff_getElem?]
    apply exists_congr
    intro i
    rw [List.getElem?_zip_eq_some]
    apply and_congr_right
    intro hi
    have hlt : i < fields.length := (List.getElem?_eq_some_iff.mp hi).1
    rw [List.getElem?_reverse (by simpa using hlt), List.length_range,
      List.getElem?_range (by omega)]
    simp only [Option.some.injEq]
    omega
  have hwl : ∀ (w : ℝ) (k : Char), (w, k) ∈ wavelengths.zip colours ↔
      ∃ j : ℕ, wavelengths[j]? = some w ∧ colours[j]? = some k := by
    intro w k
    rw [List.mem_iff_getElem?]
    exact exists_congr fun i => List.getElem?_zip_eq_some
  constructor
  · rintro ⟨f, r, hfr, w, k, hwk, a, ha, h1, h2, h3, h4, h5⟩
    subst h1 h2 h3 h4 h5
    exact ⟨(hrow _ _).mp hfr, ha, (hwl _ _).mp hwk⟩
  · rintro ⟨h1, h2, h3⟩
    exact ⟨field, row, (hrow _ _).mpr h1, wl, colour, (hwl _ _).mpr h3, col, h2, rfl, rfl, rfl, rfl,
      rfl⟩

/-- C101: a field and a wavelength that both exist get a curve, as long as there are at most seven
wavelengths. -/
theorem c101_drawn (cols : ℕ) (fields wavelengths : List ℝ) (f w : ℝ) (k : ℕ) (hf : f ∈ fields)
    (hw : w ∈ wavelengths) (hk : k < cols) (h7 : wavelengths.length ≤ 7) :
    ∃ c ∈ curves cols fields wavelengths, c.field = f ∧ c.wavelength = w ∧ c.col = k := by
  obtain ⟨i, hi⟩ := List.mem_iff_getElem?.mp hf
  obtain ⟨j, hj⟩ := List.mem_iff_getElem?.mp hw
  have hil : i < fields.length := (List.getElem?_eq_some_iff.mp hi).1
  have hjl : j < wavelengths.length := (List.getElem?_eq_some_iff.mp hj).1
  have hj7 : j < "grbcmyk".toList.length := by
    have : "grbcmyk".toList.length = 7 := by decide +kernel
    omega
  exact ⟨⟨fields.length - 1 - i, k, f, w, ("grbcmyk".toList)[j]⟩, (c101_cells _ _ _ _).mpr
    ⟨⟨i, hi, by simp only; omega⟩, hk, j, hj, List.getElem?_eq_getElem hj7⟩, rfl, rfl, rfl⟩

/-- C101 does not hold for more than seven wavelengths: there are seven colours, and the wavelengths
after the seventh are left out without a word. -/
theorem c101_wavelength_violation : ∃ fields wavelengths : List ℝ, ∃ w ∈ wavelengths,
    fields ≠ [] ∧ ∀ cols, ∀ c ∈ curves cols fields wavelengths, c.wavelength ≠ w := by
  refine ⟨[0], [1, 2, 3, 4, 5, 6, 7, 8], 8, by simp, by simp, ?_⟩
  intro cols c hc h
  obtain ⟨-, -, j, hj, hk⟩ := (c101_cells _ _ _ _).mp hc
  have hj7 : j < 7 := by
    have h := (List.getElem?_eq_some_iff.mp hk).1
    have : "grbcmyk".toList.length = 7 := by decide +kernel
    omega
  rw [h] at hj
  interval_cases j <;> norm_num at hj

/-- C101: the wavefront figure has one row per field, in the same places, and four columns, all at the
wavelength given. -/
theorem c101_opd_cells (fields : List ℝ) (l : ℝ) (c : Curve) (hc : c ∈ opdCurves fields l) :
    (∃ i : ℕ, fields[i]? = some c.field ∧ c.row + i + 1 = fields.length) ∧ c.col < 4 ∧
    c.wavelength = l := by
  simp only [opdCurves, List.mem_flatMap, List.mem_reverse, List.mem_map, List.mem_range] at hc
  obtain ⟨⟨f, r⟩, hfr, j, hj, rfl⟩ := hc
  have : (⟨r, 0, f, 0, 'g'⟩ : Curve) ∈ curves 1 fields [0] := by
    simp only [curves, List.mem_flatMap, List.mem_map]
    exact ⟨(f, r), hfr, (0, 'g'), by simp [colours], 0, by simp, rfl⟩
  exact ⟨((c101_cells _ _ _ _).mp this).1, hj, rfl⟩

/-- C101: with `run=False` nothing is done. -/
theorem c101_norun (o : Ops Y P T) (fields wavelengths : List ℝ) (s : St Y P)
    (kw : List (String × Val)) (hkw : Known kw) (hr : opt kw "run" = some (.bool false)) :
    analysis o fields wavelengths kw s = .ok ⟨s, [], [], []⟩ := by
  unfold analysis
  rw [setOptions_known kw classAttr hkw]
  have : Attrs.get (kw.reverse ++ classAttr) "run" = some (.bool false) := hr
  simp only [bind, Except.bind, this]
  rfl

/-- The default `run = True` of line 42 cannot be given: the name is that of the method, and
`Analysis(system, run=True)` calls the value `True`. -/
theorem c101_run_violation (o : Ops Y P T) (fields wavelengths : List ℝ) (s : St Y P) :
    analysis o fields wavelengths [("run", .bool true)] s = .error .notCallable := by
  unfold analysis
  rw [setOptions_known _ classAttr (by simp [classAttr])]
  have : Attrs.get ([("run", Val.bool true)].reverse ++ classAttr) "run" = some (.bool true) := by
    simp [Attrs.get]
  simp only [bind, Except.bind, this, Val.truthy]
  rfl

/-- What is written about the paraxial trace belongs to the system that is left behind if the system is
updated and neither resized nor refocused afterwards. -/
theorem c101_paraxial_text (o : Ops Y P T) (fields wavelengths : List ℝ) (s : St Y P)
    (kw : List (String × Val)) (r : Result Y P T) (hk : Fair kw)
    (h : analysis o fields wavelengths kw s = .ok r) (hu : isOn kw "update" = true)
    (hz : isOn kw "resize_full" = false) (hf : isOn kw "refocus_full" = false) :
    r.st.sys = o.update s.sys ∧ r.st.parax = o.paraxial r.st.sys := by
  have hrun : Attrs.get (kw.reverse ++ classAttr) "run" = some .method :=
    method_kept hk _ (by simp [methods]) (by simp [classAttr, List.lookup_cons])
  have hst : r.st = adjust o (kw.reverse ++ classAttr) s := by
    unfold analysis at h
    rw [setOptions_known kw classAttr hk.known] at h
    simp only [bind, Except.bind, hrun] at h
    cases hfig : figures (kw.reverse ++ classAttr) fields wavelengths with
    | error e => rw [hfig] at h; cases h
    | ok f => rw [hfig] at h; cases h; rfl
  have hon : ∀ k, Attrs.on (kw.reverse ++ classAttr) k = isOn kw k := fun _ => (isOn_eq _ _).symm
  rw [hst]
  simp [adjust, hon, hu, hz, hf]

/-- With the options as they are by default the paraxial trace that is printed is that of the system
before it is refocused: it can differ from that of the system printed with it. -/
theorem c101_stale_violation : ∃ (o : Ops ℝ ℝ ℝ) (s : St ℝ ℝ) (r : Result ℝ ℝ ℝ),
    analysis o [0, 1] [1] [] s = .ok r ∧ r.texts = [o.strSystem r.st.sys, o.strParaxial r.st.parax] ∧
    o.strParaxial r.st.parax ≠ o.strParaxial (o.paraxial r.st.sys) := by
  have hfair : Fair [] := ⟨by intro p hp; simp at hp, by simp, by simp⟩
  -- the state is the distance of the image, refocusing moves it by 1
  let o : Ops ℝ ℝ ℝ := ⟨id, id, id, fun y => y + 1, id, id, id, id⟩
  obtain ⟨r, hr, -, -, -, ht, -⟩ := c101_figures o [0, 1] [1] ⟨10, 10⟩ [] hfair (by simp)
  have hst : r.st = ⟨11, 10⟩ := by
    unfold analysis at hr
    rw [setOptions_known [] classAttr hfair.known] at hr
    have hrun : Attrs.get (([] : List (String × Val)).reverse ++ classAttr) "run" = some .method := by
      simp [Attrs.get, classAttr, List.lookup_cons]
    simp only [bind, Except.bind, hrun] at hr
    cases hfig : figures (([] : List (String × Val)).reverse ++ classAttr) [0, 1] [1] with
    | error e => rw [hfig] at hr; cases hr
    | ok f =>
      rw [hfig] at hr; cases hr
      simp [adjust, Attrs.on, Attrs.get, classAttr, List.lookup_cons, Val.truthy, o]
      norm_num
  refine ⟨o, ⟨10, 10⟩, r, hr, ?_, ?_⟩
  · rw [ht]
    simp [isOn_eq, opt, classAttr, List.lookup_cons, Val.truthy]
  · rw [hst]; simp [o]

/-- C101: the options `trace_gaussian` and `plot_rays` do nothing at all. -/
theorem c101_unused (o : Ops Y P T) (fields wavelengths : List ℝ) (s : St Y P)
    (kw : List (String × Val)) (hkw : Known kw) (k : String) (v : Val)
    (hk : k = "trace_gaussian" ∨ k = "plot_rays") :
    analysis o fields wavelengths (kw ++ [(k, v)]) s = analysis o fields wavelengths kw s := by
  have hkm : k ∈ classAttr.map Prod.fst := by rcases hk with rfl | rfl <;> simp [classAttr]
  unfold analysis
  rw [setOptions_known kw classAttr hkw, setOptions_known (kw ++ [(k, v)]) classAttr (by
    intro p hp
    rcases List.mem_append.mp hp with hp | hp
    · exact hkw p hp
    · simp only [List.mem_singleton] at hp; rw [hp]; exact hkm)]
  rw [List.reverse_append, List.reverse_singleton, List.append_assoc, List.singleton_append]
  have hg : ∀ k', k' ≠ k → ∀ a : Attrs, Attrs.get ((k, v) :: a) k' = Attrs.get a k' := by
    intro k' hne a
    simp only [Attrs.get, List.lookup_cons, beq_eq_false_iff_ne.mpr hne]
  have ho : ∀ k', k' ≠ k → ∀ a : Attrs, Attrs.on ((k, v) :: a) k' = Attrs.on a k' := by
    intro k' hne a
    simp [Attrs.on, hg k' hne a]
  have hne : ∀ k', k' ≠ "trace_gaussian" → k' ≠ "plot_rays" → k' ≠ k := by
    intro k' h1 h2 h3
    rcases hk with rfl | rfl
    · exact h1 h3
    · exact h2 h3
  simp only [bind, Except.bind, adjust, texts, figures, drawing, optional, Attrs.call,
    hg "run" (hne _ (by decide) (by decide)),
    hg "transverse" (hne _ (by decide) (by decide)), hg "longitudinal" (hne _ (by decide) (by decide)),
    hg "spots" (hne _ (by decide) (by decide)), hg "opds" (hne _ (by decide) (by decide)),
    hg "defocus" (hne _ (by decide) (by decide)), ho "print" (hne _ (by decide) (by decide)),
    ho "update" (hne _ (by decide) (by decide)), ho "resize_full" (hne _ (by decide) (by decide)),
    ho "refocus_full" (hne _ (by decide) (by decide)),
    ho "print_system" (hne _ (by decide) (by decide)),
    ho "print_paraxial" (hne _ (by decide) (by decide)),
    ho "print_gaussian" (hne _ (by decide) (by decide)),
    ho "print_full" (hne _ (by decide) (by decide)),
    ho "plot_paraxial" (hne _ (by decide) (by decide)),
    ho "plot_gaussian" (hne _ (by decide) (by decide)),
    ho "plot_full" (hne _ (by decide) (by decide)),
    ho "plot_transverse" (hne _ (by decide) (by decide)),
    ho "plot_longitudinal" (hne _ (by decide) (by decide)),
    ho "plot_spots" (hne _ (by decide) (by decide)), ho "plot_opds" (hne _ (by decide) (by decide))]

/-- Options as they are given in practice. -/
example : Fair [("plot_spots", .bool false), ("defocus", .int 3), ("update", .bool false)] ∧
    isOn [("plot_spots", .bool false), ("defocus", .int 3)] "plot_opds" = true ∧
    opt [("run", .bool false)] "run" = some (.bool false) ∧
    "trace_full" ∉ classAttr.map Prod.fst := by
  refine ⟨⟨?_, ?_, ?_⟩, ?_, ?_, ?_⟩
  · intro p hp; simp at hp; rcases hp with rfl | rfl | rfl <;> simp [classAttr]
  · intro p hp; simp at hp; rcases hp with rfl | rfl | rfl <;> simp [methods]
  · intro v hv; simp at hv; exact ⟨3, by norm_num, by simpa using hv⟩
  · simp [isOn_eq, opt, classAttr, List.lookup_cons, Val.truthy]
  · simp [opt]
  · simp [classAttr]

/-- Updating only. -/
example : Fair [("refocus_full", .bool false)] ∧
    isOn [("refocus_full", .bool false)] "update" = true ∧
    isOn [("refocus_full", .bool false)] "resize_full" = false ∧
    isOn [("refocus_full", .bool false)] "refocus_full" = false := by
  refine ⟨⟨?_, ?_, ?_⟩, ?_, ?_, ?_⟩
  · intro p hp; simp at hp; rw [hp]; simp [classAttr]
  · intro p hp; simp at hp; rw [hp]; simp [methods]
  · intro v hv; simp at hv
  all_goals simp [isOn_eq, opt, classAttr, List.lookup_cons, Val.truthy]

/-- Two fields and two wavelengths in two columns: the first field is below. -/
example : (curves 2 [0, 1] [5, 6]).map (fun c => (c.row, c.col, c.field, c.colour)) =
    [(1, 0, 0, 'g'), (1, 1, 0, 'g'), (1, 0, 0, 'r'), (1, 1, 0, 'r'),
     (0, 0, 1, 'g'), (0, 1, 1, 'g'), (0, 0, 1, 'r'), (0, 1, 1, 'r')] := by
  simp [curves, fieldRows, colours, List.range_succ]

end RayOpt.Analysis
