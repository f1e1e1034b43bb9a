import Verif.Model.Describe
import Mathlib.Tactic

/-!
C102: what is printed tells systems apart.
-/

namespace RayOpt.Serial

/-- The first line with an indentation and a label. -/
def look (n : ℕ) (s : String) (l : List TextLine) : Option Shown :=
  (l.find? fun x => x.indent = n ∧ x.label = s).map TextLine.shown

theorem look_append (n : ℕ) (s : String) (a b : List TextLine) : look n s (a ++ b) = (look n s a).or (look n s b) := by
  unfold look
  rw [List.find?_append]
  cases a.find? _ <;> simp

theorem look_ite (n : ℕ) (s : String) (p : Prop) [Decidable p] (a : TextLine) :
    look n s (if p then [a] else []) = if p ∧ a.indent = n ∧ a.label = s then some a.shown else none := by
  by_cases h : p
  · by_cases h1 : a.indent = n ∧ a.label = s <;> simp [look, h, h1]
  · simp [look, h]

theorem look_single (n : ℕ) (s : String) (a : TextLine) :
    look n s [a] = if a.indent = n ∧ a.label = s then some a.shown else none := by
  by_cases h1 : a.indent = n ∧ a.label = s <;> simp [look, h1]

theorem look_shift (k n : ℕ) (s : String) (l : List TextLine) :
    look (k + n) s (l.map (TextLine.shift k)) = look n s l := by
  unfold look
  rw [List.find?_map]
  simp only [Option.map_map]
  have h1 : (fun x : TextLine => decide (x.indent = k + n ∧ x.label = s)) ∘ TextLine.shift k
      = fun x => decide (x.indent = n ∧ x.label = s) := by
    funext x
    exact decide_eq_decide.mpr (by simp [TextLine.shift])
  rw [h1]
  rfl

/-- C102: the text of a pupil tells all its settings (but the nickname): pupils with the same text are equal. -/
theorem c102_pupil_text (p q : Pupil) (h : p.text = q.text) (hn : p.nickname = q.nickname) : p = q := by
  have key : ∀ s, look 0 s p.text = look 0 s q.text := fun s => by rw [h]
  have h1 := key "Pupil Distance"
  have h2 := key "Telecentric"
  have h3 := key "Refractive Index"
  have h4 := key "Projection"
  have h5 := key "Track Distance"
  have h6 := key "Update Radius"
  have h7 := key "Aim"
  have h8 := key "NA"
  have h9 := key "Slope"
  have h10 := key "Radius"
  have h11 := key "F-Number"
  clear key h
  obtain ⟨k, v, d, ud, ur, a, t, i, pr, n⟩ := p
  obtain ⟨k', v', d', ud', ur', a', t', i', pr', n'⟩ := q
  simp only [Pupil.text, look_append, look_ite, look_single] at h1 h2 h3 h4 h5 h6 h7 h8 h9 h10 h11
  have e1 : d = d' := by simpa using h1
  have e2 : t = t' := by
    cases k <;> cases k' <;> cases t <;> cases t' <;> simp [PKind.label] at h2 <;> rfl
  have e5 : ud = ud' := by
    cases k <;> cases k' <;> cases ud <;> cases ud' <;> simp [PKind.label] at h5 <;> rfl
  have e6 : ur = ur' := by
    cases k <;> cases k' <;> cases ur <;> cases ur' <;> simp [PKind.label] at h6 <;> rfl
  have e7 : a = a' := by
    cases k <;> cases k' <;> cases a <;> cases a' <;> simp [PKind.label] at h7 <;> rfl
  have e3 : i = i' := by
    by_cases c : i = 1 <;> by_cases c' : i' = 1 <;> cases k <;> cases k' <;> simp [PKind.label, c, c'] at h3 ⊢ <;>
      exact h3
  have e4 : pr = pr' := by
    by_cases c : pr = "rectilinear" <;> by_cases c' : pr' = "rectilinear" <;> cases k <;> cases k' <;>
      simp [PKind.label, c, c'] at h4 ⊢ <;> exact h4
  have e8 : k = k' ∧ v = v' := by
    cases k <;> cases k' <;> simp [PKind.label] at h8 h9 h10 h11 ⊢ <;> assumption
  obtain ⟨e8, e9⟩ := e8
  dsimp only at hn
  subst e1 e2 e3 e4 e5 e6 e7 e8 e9 hn
  rfl

theorem shift_injective (n : ℕ) : Function.Injective (TextLine.shift n) := by
  intro a b h
  obtain ⟨i, s, v⟩ := a
  obtain ⟨j, t, w⟩ := b
  simp only [TextLine.shift, TextLine.mk.injEq] at h ⊢
  exact ⟨by omega, h.2⟩

theorem look_shift_none (k n : ℕ) (hk : n < k) (s : String) (l : List TextLine) :
    look n s (l.map (TextLine.shift k)) = none := by
  unfold look
  rw [Option.map_eq_none_iff, List.find?_eq_none]
  intro x hx
  obtain ⟨y, -, rfl⟩ := List.mem_map.mp hx
  intro h1
  have h2 := (of_decide_eq_true h1).1
  simp only [TextLine.shift] at h2
  omega

theorem filter_shift (l : List TextLine) :
    (l.map (TextLine.shift 2)).filter (fun x => 2 ≤ x.indent) = l.map (TextLine.shift 2) := by
  rw [List.filter_eq_self]
  intro x hx
  obtain ⟨y, -, rfl⟩ := List.mem_map.mp hx
  simp [TextLine.shift]

/-- The indented lines of a conjugate are those of its pupil. -/
theorem conj_pupil_lines (c : Conj) :
    c.text.filter (fun x => 2 ≤ x.indent) = c.pupil.text.map (TextLine.shift 2) := by
  unfold Conj.text
  simp only [List.filter_append, filter_shift]
  split_ifs <;> simp

/-- C102: so does the text of a conjugate, with its pupil. -/
theorem c102_conj_text (c d : Conj) (h : c.text = d.text) (hn : c.nickname = d.nickname)
    (hp : c.pupil.nickname = d.pupil.nickname) : c = d := by
  have key : ∀ s, look 0 s c.text = look 0 s d.text := fun s => by rw [h]
  have h0 : c.pupil = d.pupil := by
    refine c102_pupil_text _ _ ?_ hp
    have h1 := conj_pupil_lines c
    rw [h, conj_pupil_lines d] at h1
    exact (List.map_injective_iff.mpr (shift_injective 2) h1).symm
  have h1 := key "Radius"
  have h2 := key "Semi-Angle"
  have h3 := key "Projection"
  have h4 := key "Update Radius"
  clear key h hp
  obtain ⟨f, s, p, pr, u, n⟩ := c
  obtain ⟨f', s', p', pr', u', n'⟩ := d
  dsimp only at h0 hn
  subst h0 hn
  simp only [Conj.text, look_append, look_ite, look_single, look_shift_none 2 0 (by norm_num)] at h1 h2 h3 h4
  have e1 : f = f' ∧ s = s' := by
    cases f <;> cases f' <;> simp [Real.pi_ne_zero] at h1 h2 ⊢ <;> assumption
  have e3 : pr = pr' := by
    by_cases c : pr = "rectilinear" <;> by_cases c' : pr' = "rectilinear" <;> cases f <;> cases f' <;>
      simp [c, c'] at h3 ⊢ <;> exact h3
  have e4 : u = u' := by
    cases f <;> cases f' <;> cases u <;> cases u' <;> simp at h4 <;> rfl
  obtain ⟨e1, e2⟩ := e1
  subst e1 e2 e3 e4
  rfl

/-- Indented lines before a line that is not indented can be told from the rest. -/
theorem split_shift (a b : List TextLine) (x y : TextLine) (r t : List TextLine) (hx : x.indent = 0)
    (hy : y.indent = 0) (h : a.map (TextLine.shift 1) ++ x :: r = b.map (TextLine.shift 1) ++ y :: t) :
    a = b ∧ r = t := by
  induction a generalizing b with
  | nil =>
    cases b with
    | nil => exact ⟨rfl, by simpa using (List.cons.inj (by simpa using h : x :: r = y :: t)).2⟩
    | cons v w =>
      have h1 := congrArg TextLine.indent (List.cons.inj h).1
      simp [TextLine.shift, hx] at h1
      omega
  | cons u a ih =>
    cases b with
    | nil =>
      have h1 := congrArg TextLine.indent (List.cons.inj h).1
      simp [TextLine.shift, hy] at h1
    | cons v w =>
      obtain ⟨h1, h2⟩ := List.cons.inj h
      obtain ⟨h3, h4⟩ := ih w h2
      exact ⟨by rw [shift_injective 1 h1, h3], h4⟩

/-- A conjugate without its nickname and that of its pupil. -/
def Conj.anonymous (c : Conj) : Conj := { c with nickname := none, pupil := { c.pupil with nickname := none } }

theorem conj_text_anonymous (c : Conj) : c.anonymous.text = c.text := rfl

/-- C102: the lines printed for a system before its elements tell its description, scale, wavelengths, fields, stop and
all settings of both conjugates and their pupils (only nicknames are not printed): they are the same for two systems
exactly if all of these are. -/
theorem c102_head_text (d d' : String) (s s' : ℝ) (w w' f f' : List ℝ) (o o' i i' : Conj) (k k' : ℤ) :
    headText d s w f o i k = headText d' s' w' f' o' i' k' ↔
      d = d' ∧ s = s' ∧ w = w' ∧ f = f' ∧ o.anonymous = o'.anonymous ∧ i.anonymous = i'.anonymous ∧ k = k' := by
  constructor
  · intro h
    simp only [headText, List.cons_append, List.nil_append, List.append_assoc, List.cons.injEq, TextLine.mk.injEq,
      Shown.word.injEq, Shown.num.injEq, Shown.nums.injEq, true_and] at h
    obtain ⟨h1, h2, h3, h4, h5⟩ := h
    obtain ⟨h6, h7⟩ := split_shift _ _ _ _ _ _ rfl rfl h5
    obtain ⟨h8, -⟩ := split_shift _ _ _ _ _ _ rfl rfl h7
    · refine ⟨h1, ?_, ?_, h4, ?_, ?_, ?_⟩
      · norm_num at h2
        exact h2
      · refine List.map_injective_iff.mpr ?_ h3
        intro x y hxy
        norm_num at hxy
        exact hxy
      · exact c102_conj_text _ _ (by rw [conj_text_anonymous, conj_text_anonymous, h6]) rfl rfl
      · exact c102_conj_text _ _ (by rw [conj_text_anonymous, conj_text_anonymous, h8]) rfl rfl
      · rw [h8] at h7
        simpa using List.append_cancel_left h7
  · rintro ⟨rfl, rfl, rfl, rfl, h5, h6, rfl⟩
    unfold headText
    rw [← conj_text_anonymous o, ← conj_text_anonymous i, h5, h6, conj_text_anonymous, conj_text_anonymous]

theorem mem_ite (p : Prop) [Decidable p] (a l : TextLine) : l ∈ (if p then [a] else []) ↔ p ∧ l = a := by
  by_cases h : p <;> simp [h]

/-- C102: the lines of a pupil: its distance and its argument always, every other setting exactly if it is not the
usual one. -/
theorem c102_pupil_lines (p : Pupil) (l : TextLine) :
    l ∈ p.text ↔ l = ⟨0, "Pupil Distance", .num p.distance⟩ ∨
      (p.kind = .na ∧ l = ⟨0, "NA", .num p.value⟩) ∨ (p.kind = .slope ∧ l = ⟨0, "Slope", .num p.value⟩) ∨
      (p.kind = .radius ∧ l = ⟨0, "Radius", .num p.value⟩) ∨ (p.kind = .fno ∧ l = ⟨0, "F-Number", .num p.value⟩) ∨
      (p.telecentric = true ∧ l = ⟨0, "Telecentric", .flag true⟩) ∨
      (p.index ≠ 1 ∧ l = ⟨0, "Refractive Index", .num p.index⟩) ∨
      (p.projection ≠ "rectilinear" ∧ l = ⟨0, "Projection", .word p.projection⟩) ∨
      (p.updateDistance = false ∧ l = ⟨0, "Track Distance", .flag false⟩) ∨
      (p.updateRadius = true ∧ l = ⟨0, "Update Radius", .flag true⟩) ∨
      (p.aim = true ∧ l = ⟨0, "Aim", .flag true⟩) := by
  obtain ⟨k, v, d, ud, ur, a, t, i, pr, n⟩ := p
  have hf : ∀ (b c : Bool) (x : String), (b = c ∧ l = ⟨0, x, .flag b⟩) ↔ (b = c ∧ l = ⟨0, x, .flag c⟩) := by
    rintro b c x
    constructor <;> rintro ⟨rfl, h⟩ <;> exact ⟨rfl, h⟩
  have e : ∀ b : Bool, ((!b) = true) ↔ b = false := by decide
  simp only [Pupil.text, List.mem_append, mem_ite, List.mem_singleton, e]
  rw [hf t true, hf ud false, hf ur true, hf a true]
  clear hf e
  generalize (t = true ∧ l = ⟨0, "Telecentric", .flag true⟩) = P1
  generalize (i ≠ 1 ∧ l = ⟨0, "Refractive Index", .num i⟩) = P2
  generalize (pr ≠ "rectilinear" ∧ l = ⟨0, "Projection", .word pr⟩) = P3
  generalize (ud = false ∧ l = ⟨0, "Track Distance", .flag false⟩) = P4
  generalize (ur = true ∧ l = ⟨0, "Update Radius", .flag true⟩) = P5
  generalize (a = true ∧ l = ⟨0, "Aim", .flag true⟩) = P6
  generalize (l = ⟨0, "Pupil Distance", .num d⟩) = P7
  cases k <;> simp only [PKind.label, reduceCtorEq, false_and, true_and, false_or] <;> tauto

/-- C102: the lines of a conjugate: radius or angle in degrees, settings other than the usual ones, and its pupil. -/
theorem c102_conj_lines (c : Conj) :
    (c.finite = true → look 0 "Radius" c.text = some (.num c.size)) ∧
    (c.finite = false → ∃ deg, look 0 "Semi-Angle" c.text = some (.num deg) ∧ deg * (Real.pi / 180) = c.size) ∧
    look 0 "Projection" c.text = (if c.projection = "rectilinear" then none else some (.word c.projection)) ∧
    look 0 "Update Radius" c.text = (if c.updateRadius = true then some (.flag true) else none) ∧
    ∀ n s, look (2 + n) s c.text = look n s c.pupil.text := by
  refine ⟨fun h => ?_, fun h => ⟨c.size * 180 / Real.pi, ?_, ?_⟩, ?_, ?_, fun n s => ?_⟩
  · simp only [Conj.text, look_append, look_ite, look_single, h]
    simp
  · simp only [Conj.text, look_append, look_ite, look_single, h]
    simp
  · field_simp
  · cases hf : c.finite <;> by_cases hp : c.projection = "rectilinear" <;>
      simp only [Conj.text, look_append, look_ite, look_single, look_shift_none 2 0 (by norm_num), hf, hp] <;> simp [hp]
  · cases hf : c.finite <;> by_cases hp : c.updateRadius = true <;>
      simp only [Conj.text, look_append, look_ite, look_single, look_shift_none 2 0 (by norm_num), hf, hp] <;> simp
  · have h1 : ∀ k, ¬ (0 = 2 + k) := fun k => by omega
    cases hf : c.finite <;>
      simp only [Conj.text, look_append, look_ite, look_single, look_shift, hf] <;> simp [h1]

/-- C102: the lines of a system: the scale in millimetres, the wavelengths in nanometres, the fields, the stop, and the
lines of the object right behind `Object:`, those of the image right behind `Image:`. -/
theorem c102_head_lines (d : String) (s : ℝ) (w f : List ℝ) (o i : Conj) (k : ℤ) :
    let t := headText d s w f o i k
    look 0 "System" t = some (.word d) ∧ look 0 "Scale" t = some (.num (1000 * s)) ∧
    look 0 "Wavelengths" t = some (.nums (w.map fun x => 1000000000 * x)) ∧ look 0 "Fields" t = some (.nums f) ∧
    look 0 "Stop" t = some (.int k) ∧
    (∀ (j : ℕ) (l : TextLine), o.text[j]? = some l → t[5 + j]? = some (l.shift 1)) ∧
    t[5 + o.text.length]? = some ⟨0, "Image", .nothing⟩ ∧
    (∀ (j : ℕ) (l : TextLine), i.text[j]? = some l → t[6 + o.text.length + j]? = some (l.shift 1)) ∧
    t.length = 8 + o.text.length + i.text.length := by
  intro t
  have hs : s / (1 / 10 ^ 3) = 1000 * s := by ring
  have hw : (w.map fun x => x / (1 / 10 ^ 9)) = w.map fun x => 1000000000 * x :=
    List.map_congr_left fun x _ => by ring
  refine ⟨?_, ?_, ?_, ?_, ?_, fun j l hl => ?_, ?_, fun j l hl => ?_, ?_⟩
  · simp [t, headText, look]
  · simp [t, headText, look]
    ring
  · simp [t, headText, look]
    intros
    ring
  · simp [t, headText, look]
  · simp only [t, headText, look_append, look_shift_none 1 0 (by norm_num)]
    simp [look]
  · have hj : j < o.text.length := (List.getElem?_eq_some_iff.mp hl).1
    have e : 5 + j = j + 1 + 1 + 1 + 1 + 1 := by omega
    simp only [t, headText, List.cons_append, List.nil_append, List.append_assoc, e, List.getElem?_cons_succ]
    rw [List.getElem?_append_left (by simpa using hj), List.getElem?_map, hl]
    rfl
  · have e : 5 + o.text.length = o.text.length + 1 + 1 + 1 + 1 + 1 := by omega
    simp only [t, headText, List.cons_append, List.nil_append, List.append_assoc, e, List.getElem?_cons_succ]
    rw [List.getElem?_append_right (by simp)]
    simp
  · have hj : j < i.text.length := (List.getElem?_eq_some_iff.mp hl).1
    have e : 6 + o.text.length + j = (o.text.length + 1 + j) + 1 + 1 + 1 + 1 + 1 := by omega
    simp only [t, headText, List.cons_append, List.nil_append, List.append_assoc, e, List.getElem?_cons_succ]
    rw [List.getElem?_append_right (by simp; omega)]
    have e2 : o.text.length + 1 + j - (o.text.map (TextLine.shift 1)).length = j + 1 := by
      simp
      omega
    rw [e2, List.getElem?_cons_succ, List.getElem?_append_left (by simpa using hj), List.getElem?_map, hl]
    rfl
  · simp [t, headText]
    omega

/-- C102: what a system prints tells more than what it saves: whether a conjugate updates its radius is printed but
not part of its dictionary. -/
theorem c102_dict_violation : ∃ c d : Conj, c.dict = d.dict ∧ c.text ≠ d.text := by
  let p : Pupil := ⟨.radius, 1, 1, true, false, false, false, 1, "rectilinear", none⟩
  refine ⟨⟨true, 1, p, "rectilinear", false, none⟩, ⟨true, 1, p, "rectilinear", true, none⟩, rfl, ?_⟩
  intro h
  have := congrArg Conj.updateRadius (c102_conj_text _ _ h rfl rfl)
  simp at this

/-- A paraxial object with a stop-tracking pupil given by its radius: two lines for the pupil, as only settings other
than the usual ones are printed. -/
example : (⟨true, 2, ⟨.radius, 3, 10, true, false, false, false, 1, "rectilinear", none⟩, "rectilinear", false, none⟩ :
    Conj).text = [⟨0, "Radius", .num 2⟩, ⟨0, "Pupil", .nothing⟩, ⟨2, "Pupil Distance", .num 10⟩,
      ⟨2, "Radius", .num 3⟩] := by
  simp [Conj.text, Pupil.text, TextLine.shift, PKind.label]

end RayOpt.Serial
