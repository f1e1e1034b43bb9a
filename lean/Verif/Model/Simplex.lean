import Mathlib.Data.Real.Basic
import Mathlib.Data.Nat.Choose.Basic
import Mathlib.Analysis.SpecialFunctions.Pow.Real

/-!
Truncated multivariate polynomials: rayopt/simplex.py and rayopt/simplex_accel.pyx.

Coefficient vectors are functions `ℕ → ℝ` read at the positions `0 .. q-1`; the lemmas show that all
positions taken from the index tables are in that range.  Index tables are `uint16` arrays in the
code: every stored number is reduced modulo 65536 here.  Overflow of C `int` in `binom`/`multinom` is
not modelled.
-/

namespace RayOpt.Simplex

/-- Conversion to `uint16` (`dtype=np.uint16`, rayopt/simplex.py 81-82, 100). -/
def u16 (n : ℕ) : ℕ := n % 65536

/-- `simplex_iter(d, m)`, rayopt/simplex.py 52-60: the yielded tuples in order. -/
def simplexIter : ℕ → ℕ → List (List ℕ)
  | 0, _ => [[]]
  | d + 1, m => (List.range m).flatMap fun i =>
      (simplexIter d (i + 1)).map fun j => (i - j.sum) :: j

/-- `simplex_size(d, m)`, rayopt/simplex.py 63-70. -/
def simplexSize (d m : ℕ) : ℕ :=
  let np := (List.range d).foldl (fun (np : ℕ × ℕ) i => (np.1 * (m + i), np.2 * (i + 1))) (1, 1)
  np.1 / np.2

/-- The tables of `simplex_enum(d, m)`, rayopt/simplex.py 73-88. -/
structure Tables where
  /-- exponents to position -/
  idx : List ℕ → ℕ
  /-- position to exponents -/
  jdx : List (List ℕ)

/-- `simplex_enum(d, m)`, rayopt/simplex.py 73-88.  `none`: without any point the loop variable of
line 87 is undefined (`NameError`), with a wrong size the assertion fails. -/
def simplexEnum (d m : ℕ) : Option Tables :=
  let pts := simplexIter d m
  if pts = [] then none
  else if pts.length ≠ simplexSize d m then none
  else some
    { idx := pts.zipIdx.foldl (fun f ij => Function.update f ij.1 (u16 ij.2)) fun _ => 0
      jdx := pts.map fun i => i.map u16 }

/-- `pq[0::2]`, rayopt/simplex.py 102. -/
def evens : List ℕ → List ℕ
  | [] => []
  | [a] => [a]
  | a :: _ :: l => a :: evens l

/-- `pq[1::2]`, rayopt/simplex.py 102. -/
def odds : List ℕ → List ℕ
  | [] => []
  | [_] => []
  | _ :: b :: l => b :: odds l

/-- The number of product terms the table has room for, rayopt/simplex.py 95-97. -/
def room (m : ℕ) : ℕ :=
  let a := (m - 1) / 3
  let b := (m - a - 1) / 2
  (a + 1) * (b + 1) * (m - a - b)

/-- One pass of the loop of `simplex_idx`, rayopt/simplex.py 99-103: append the pair of positions to
the list of the product's position. -/
def abiStep (t : Tables) (abi : ℕ → List (ℕ × ℕ)) (pq : List ℕ) : ℕ → List (ℕ × ℕ) :=
  let p := evens pq
  let q := odds pq
  let l := t.idx (List.zipWith (· + ·) p q)
  Function.update abi l (abi l ++ [(t.idx p, t.idx q)])

/-- `simplex_idx(d, m)`, rayopt/simplex.py 91-106.  The list `abi l` is `abi[l, 1:abi[l, 0, 0]+1]`.
`none`: one of the lists outgrows the array (`IndexError`) or none fills it (the assertion of line
105 fails).  The counter `abi[l, 0, 0]` is itself a `uint16`; wrapping of the counter is not
modelled. -/
noncomputable def simplexIdx (d m : ℕ) : Option (Tables × (ℕ → List (ℕ × ℕ))) :=
  open Classical in
  (simplexEnum d m).bind fun t =>
    let abi := (simplexIter (2 * d) m).foldl (abiStep t) fun _ => []
    if ∃ l < t.jdx.length, room m < (abi l).length then none
    else if ∀ l < t.jdx.length, (abi l).length ≠ room m then none
    else some (t, abi)

/-- `simplex_mul`, rayopt/simplex_accel.pyx 28-47. -/
noncomputable def mul (abi : ℕ → List (ℕ × ℕ)) (a b : ℕ → ℝ) : ℕ → ℝ := fun i =>
  (abi i).foldl (fun c ab => c + a ab.1 * b ab.2) 0

/-- The loop of `simplex_pow`, rayopt/simplex_accel.pyx 65-69, for `i = k, k+1, ...`. -/
noncomputable def powLoop (abi : ℕ → List (ℕ × ℕ)) (x : ℕ → ℝ) (p : ℝ) :
    ℕ → ℕ → (ℕ → ℝ) × (ℕ → ℝ) → (ℕ → ℝ) × (ℕ → ℝ)
  | 0, _, yz => yz
  | s + 1, i, yz =>
    let w := mul abi x yz.1
    let y := fun j => (p - i) / (i + 1) * w j
    powLoop abi x p s (i + 1) (y, fun j => yz.2 j + y j)

/-- `simplex_pow(abi, m, a, p)`, rayopt/simplex_accel.pyx 50-72; `a[0]**p` is the real power. -/
noncomputable def pow (abi : ℕ → List (ℕ × ℕ)) (m : ℕ) (a : ℕ → ℝ) (p : ℝ) : ℕ → ℝ :=
  let x := Function.update a 0 0
  let y := fun i => x i * p
  let z := Function.update y 0 (y 0 + 1)
  let yz := powLoop abi x p (m - 1) 1 (y, z)
  fun i => yz.2 i * a 0 ^ p

/-- The table of powers `xp[k, i, :]` of one point, rayopt/simplex_accel.pyx 82-86. -/
def powers (x : ℝ) : ℕ → List ℝ
  | 0 => []
  | n + 1 => (List.range (n + 1)).foldl (fun acc j =>
      if j = 0 then [x] else acc ++ [acc.getLastD 0 * x]) []

/-- `simplex_eval(jdx, a, x)` for one point `x`, rayopt/simplex_accel.pyx 75-95.  `none`: with
`jdx[-1, -1] = 0` the power table has no room but line 84 writes to its first entry (the bounds check
is switched off), and a table read outside its bounds. -/
def eval (jdx : List (List ℕ)) (a : ℕ → ℝ) (x : List ℝ) : Option ℝ :=
  let n := (jdx.getLastD []).getLastD 0
  if n = 0 ∧ x ≠ [] then none else
  let xp := x.map fun xi => powers xi n
  jdx.zipIdx.foldl (fun y ji => y.bind fun y =>
    ((ji.1.zip xp).foldl (fun yi kp => yi.bind fun yi =>
      if 0 < kp.1 then (kp.2[kp.1 - 1]?).map (yi * ·) else some yi) (some (a ji.2))).map (y + ·))
    (some 0)

/-- `shift(a)`, rayopt/simplex.py 161-168. -/
noncomputable def shift (p : ℕ → ℝ) (a : ℝ) : ℕ → ℝ := Function.update p 0 (p 0 + a)

/-- `binom(n, k)`, rayopt/simplex_accel.pyx 98-106. -/
def binom (n k : ℕ) : ℕ :=
  if n < k then 0
  else ((List.range (min k (n - k))).foldl
    (fun (rn : ℕ × ℕ) i => (rn.1 * rn.2 / (i + 1), rn.2 - 1)) (1, n)).1

/-- `multinom(k)`, rayopt/simplex_accel.pyx 109-115, for a non-empty `k`. -/
def multinom (k : List ℕ) : ℕ :=
  (k.tail.foldl (fun (tr : ℕ × ℕ) ki => (tr.1 + ki, tr.2 * binom (tr.1 + ki) ki))
    (k.headD 0, 1)).2

/-- The loop of `multinom_next`, rayopt/simplex_accel.pyx 122-128, on the entries in reverse order:
`above` is `q[i+1]`, the list starts with `q[i]`. -/
def nextLoop : ℕ → ℕ → List ℕ → List ℕ
  | _, above, [] => [above]
  | p0, above, x :: xs =>
    if x = p0 then (above + 1) :: ((0 :: xs).dropLast ++ [p0 - 1])
    else above :: nextLoop (p0 - x) x xs

/-- `multinom_next(p, q)`, rayopt/simplex_accel.pyx 118-129: the returned number and the new `q`. -/
def multinomNext (p : ℕ) (q : List ℕ) : ℕ × List ℕ :=
  match q.reverse with
  | [] => (0, q)
  | x :: xs =>
    if x = p then (0, q)
    else
      let q := (nextLoop (p - x) x xs).reverse
      (multinom q, q)

/-- One row of the state of `simplex_transform`: the exponent `ji[k]`, the row `p[k, :]` of its
composition and the multinomial coefficient `m[k]` (a `uint16`). -/
structure TRow where
  e : ℕ
  q : List ℕ
  m : ℕ

/-- `(e, 0, ..., 0)` of length `d`, rayopt/simplex_accel.pyx 142-144. -/
def firstComp (d e : ℕ) : List ℕ := e :: List.replicate (d - 1) 0

/-- `supernom_next`, rayopt/simplex_accel.pyx 132-145, on the rows in reverse order. -/
def supernomNext (d : ℕ) : List TRow → Bool × List TRow
  | [] => (false, [])
  | r :: rs =>
    let mq := multinomNext r.e r.q
    if u16 mq.1 ≠ 0 then (true, ⟨r.e, mq.2, u16 mq.1⟩ :: rs)
    else
      let b := supernomNext d rs
      (b.1, ⟨r.e, firstComp d r.e, 1⟩ :: b.2)

/-- `idx.ravel()[l]` for an array of shape `(s,)*d`: the entry at the base-`s` digits of `l`
(rayopt/simplex.py 187, rayopt/simplex_accel.pyx 173). -/
def ravel (idx : List ℕ → ℕ) (d s l : ℕ) : ℕ :=
  idx ((List.range d).map fun k => l / s ^ (d - 1 - k) % s)

/-- The factor `q` and the flat position `l` of one state, rayopt/simplex_accel.pyx 165-172; `rows`
in order. -/
noncomputable def term (d s : ℕ) (t : ℕ → ℕ → ℝ) (rows : List TRow) : ℝ × ℕ :=
  (List.range d).foldl (fun ql j =>
    rows.zipIdx.foldl (fun ql rk =>
      (ql.1 * t rk.2 j ^ (rk.1.q.getD j 0), ql.2 + rk.1.q.getD j 0))
      (ql.1 * (rows.map TRow.m).getD j 1, ql.2 * s)) (1, 0)

/-- The `while True` loop of `simplex_transform`, rayopt/simplex_accel.pyx 164-178, for one
coefficient `c = x[j, i]`; `fuel` bounds the number of passes, `none` if it does not suffice. -/
noncomputable def transformLoop (idx : List ℕ → ℕ) (d s : ℕ) (t : ℕ → ℕ → ℝ) (c : ℝ) :
    ℕ → List TRow → (ℕ → ℝ) → Option ((ℕ → ℝ) × List TRow)
  | 0, _, _ => none
  | fuel + 1, rows, y =>
    let ql := term d s t rows
    let l := ravel idx d s ql.2
    let y := Function.update y l (y l + ql.1 * c)
    let nx := supernomNext d rows.reverse
    if nx.1 then transformLoop idx d s t c fuel nx.2.reverse y
    else some (y, nx.2.reverse)

/-- `simplex_transform(idx, jdx, x, t)`, rayopt/simplex_accel.pyx 148-179, for one coefficient vector
`x`.  The rows are re-initialised from `jdx[i]` in column 0 only (line 162-163); the other columns
and `m` keep what the previous coefficient left. -/
noncomputable def transform (fuel : ℕ) (tb : Tables) (d : ℕ) (t : ℕ → ℕ → ℝ) (x : ℕ → ℝ) :
    Option (ℕ → ℝ) :=
  let s := (tb.jdx.getLastD []).getLastD 0 + 1
  let rows0 : List TRow := (List.range d).map fun _ => ⟨0, List.replicate d 0, 1⟩
  (tb.jdx.zipIdx.foldl (fun st ji => st.bind fun st =>
    transformLoop tb.idx d s t (x ji.2) fuel
      (List.zipWith (fun r (e : ℕ) => (⟨e, e :: r.q.tail, r.m⟩ : TRow)) st.2 ji.1) st.1)
    (some (fun _ => 0, rows0))).map Prod.fst

/-- `finite_object_fast(idx, jdx, r, u, w, s, t)`, rayopt/simplex_accel.pyx 185-209: the two columns of
`bst`. -/
noncomputable def finiteObject (tb : Tables) (r u w : ℝ) (s t : ℕ → ℝ) : (ℕ → ℝ) × (ℕ → ℝ) :=
  tb.jdx.zipIdx.foldl (fun bst ep =>
    let i := ep.1.getD 0 0
    let j := ep.1.getD 1 0
    let k := ep.1.getD 2 0
    let s1 := r * s ep.2 - u * t ep.2
    let t1 := -w * t ep.2
    (List.range (k + 1)).foldl (fun bst l =>
      (List.range (j + 1)).foldl (fun bst m =>
        (List.range (m + 1)).foldl (fun bst n =>
          let c : ℝ := r ^ (2 * i + k) * u ^ (2 * j - 2 * m + l + n) * w ^ (2 * m + k - l - n)
            * 2 ^ n * (-1) ^ k * binom k l * binom j m * binom m n
          let v := tb.idx [i + j + l - m, m - n, k - l + n]
          (Function.update bst.1 v (bst.1 v + c * s1), Function.update bst.2 v (bst.2 v + c * t1)))
          bst) bst) bst) (fun _ => 0, fun _ => 0)

end RayOpt.Simplex
