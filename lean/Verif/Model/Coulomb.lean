import Verif.Model.HardSphere
import Mathlib.Analysis.SpecialFunctions.Pow.Real
import Mathlib.Analysis.SpecialFunctions.Trigonometric.Inverse
import Mathlib.Analysis.SpecialFunctions.Log.Basic
import Mathlib.Data.Complex.Basic

/-!
# The Coulomb wave functions

The algorithm behind `coulombWaveFunctions`, `rmatrix/src/coh3-coulomb.hpp`,
`rmatrix/src/coh3-extwave.hpp` and `rmatrix/src/coh3-asympt.hpp`, with `double` idealised as `ℝ`.
`omExternalClosed` and `omAsymptoticClosed` are not called by anything and are not modelled.
-/

namespace Verif

/-! ## Starting values, `coh3-asympt.hpp` -/

/-- `PI_2`, `coh3-asympt.hpp:15`. -/
noncomputable def PI_2 : ℝ := 1.57079632679489661923

/-- `PI_4`, `coh3-asympt.hpp:16`. -/
noncomputable def PI_4 : ℝ := 0.785398163397448309616

/-- The exponent `q` that `omGcase1` computes, `coh3-asympt.hpp:26-45`, as a function of
`y1 = 1/(2y)` and `t = ra y1`. -/
noncomputable def riccati1Exponent (y t : ℝ) : ℝ :=
  let y1 := 1 / (2 * y)
  let t1 := 1 - t
  let t2 := t * t1 * t1 * t1
  let t3 := Real.sqrt t2
  let g0 := Real.sqrt (t * t1) + Real.arcsin (Real.sqrt t) - PI_2
  let g1 := Real.log (t / t1) / 4
  let g2 := -(8 * t * t - 12 * t + 9) / (48 * t3)
  let g3 := (8 * t - 3) / (64 * t2)
  let g4 := (t*(t*(t*(t*(t*(2048*t-9216)+16128)-13440)-12240)+7560)-1890) / (92160 * t2 * t3)
  let g5 := 3 * (t*(t*(1024*t-448)+208)-39) / (8192 * t2 * t2)
  let g6 := -(t*(t*(t*(t*(t*(t*(t*(t*(t*(262144*t-1966080)+6389760)-11714560)+13178880)-9225216)
      +13520640)-3588480)+2487240)-873180)+130977) / (10321920 * t2 * t2 * t3)
  let g7 := (t*(t*(t*(t*(1105920*t-55296)+314624)-159552)+45576)-5697) / (393216 * t2 * t2 * t2)
  g1 - 2 * y * g0 - y1*(g2-y1*(g3-y1*(g4-y1*(g5-y1*(g6-g7*y1)))))

/-- The factor by which `omGcase1` multiplies `p0 y1` to obtain `p1`, `coh3-asympt.hpp:55-67`. -/
noncomputable def riccati1Slope (y t : ℝ) : ℝ :=
  let y1 := 1 / (2 * y)
  let t1 := 1 - t
  let g0 := Real.sqrt (t1 / t)
  let g1 := 1 / (4 * t * t1)
  let g2 := -(8 * t - 3) / (32 * Real.sqrt (t ^ 3 * t1 ^ 5))
  let g3 := 3 * (8 * t * t - 4 * t + 1) / (64 * t * t * t1 ^ 4)
  let g4 := -(t*(t*(1536*t-704)+336)-63) / (2048 * Real.sqrt (t ^ 5 * t1 ^ 11))
  let g5 := 3 * (t*(t*(t*(2560*t-832)+728)-260)+39) / (4096 * t * t * t * t1 ^ 7)
  let g6 := (t*(t*(t*(t*(-368640*t-30720)+114944)-57792)+16632)-2079)
      / (65536 * Real.sqrt (t ^ 7 * t1 ^ 17))
  let g7 := 3 * (t*(t*(t*(t*(t*(860160*t+196608)+308480)-177280)+73432)-17724)+1899)
      / (131072 * t ^ 4 * t1 ^ 10)
  g1 - 2 * y * g0 - y1*(g2-y1*(g3-y1*(g4-y1*(g5-y1*(g6-g7*y1)))))

/-- Models `omGcase1`, `coh3-asympt.hpp:22-68`. Outside `0 < t < 1` the square roots and the
logarithm are not numbers; the callers stay inside. -/
noncomputable def omGcase1 (ra y : ℝ) : Outcome (ℝ × ℝ) :=
  let y1 := 1 / (2 * y)
  let t := ra * y1
  if 0 < t ∧ t < 1 then
    let q := riccati1Exponent y t
    if q > 100 then .ok (0, 0)
    else
      let p0 := Real.exp q
      .ok (p0, p0 * y1 * riccati1Slope y t)
  else .error .notFinite

/-- Models `omGcase2`, `coh3-asympt.hpp:73-83`; called with `y ≥ 5`. -/
noncomputable def omGcase2 (y : ℝ) : ℝ × ℝ :=
  (1.223404016 * y ^ (1 / 6 : ℝ)
      * (1 + 0.04959570165 * y ^ (-4 / 3 : ℝ) - 0.008888888889 * y ^ (-2 : ℝ)
          + 0.002455199181 * y ^ (-10 / 3 : ℝ) - 0.0009108958061 * y ^ (-4 : ℝ)
          + 0.0002534684115 * y ^ (-16 / 3 : ℝ)),
   -0.7078817734 * y ^ (-1 / 6 : ℝ)
      * (1 - 0.1728260369 * y ^ (-2 / 3 : ℝ) + 0.0003174603174 * y ^ (-2 : ℝ)
          - 0.003581214850 * y ^ (-8 / 3 : ℝ) + 0.0003117824680 * y ^ (-4 : ℝ)
          - 0.0009073966427 * y ^ (-14 / 3 : ℝ)))

/-- The sums `gs, gt, ps, pt` of `omGcase3` and their last terms, `coh3-asympt.hpp:90`. -/
structure AsymptoticSeries where
  gs : ℝ
  gt : ℝ
  ps : ℝ
  pt : ℝ
  gs0 : ℝ
  gt0 : ℝ
  ps0 : ℝ
  pt0 : ℝ

/-- Models the inner loop of `omGcase3`, `coh3-asympt.hpp:100-118`, from term `i` on. The quotients
`gs1/gs0` and `ps1/ps0` are only compared: a zero denominator makes the floating-point comparison
false (an infinity or NaN), and so does the value 0 which `ℝ` gives to the quotient. The `flag` set at
the first `break` is always overwritten (or ignored) after the loop. -/
noncomputable def asymptoticTerms (ra y : ℝ) : ℕ → ℕ → AsymptoticSeries → AsymptoticSeries
  | 0, _, s => s
  | k + 1, i, s =>
    let c := (2 * (i + 1) : ℝ) * ra
    let a := (2 * i + 1 : ℝ) * y / c
    let b := (y * y - (i * (i + 1) : ℝ)) / c
    if a * a + b * b > 1 then s
    else
      let gs1 := a * s.gs0 - b * s.gt0
      let gt1 := a * s.gt0 + b * s.gs0
      let ps1 := a * s.ps0 - b * s.pt0 - gs1 / ra
      let pt1 := a * s.pt0 + b * s.ps0 - gt1 / ra
      if |1 - gs1 / s.gs0| < 1e-16 ∧ |1 - ps1 / s.ps0| < 1e-16 then s
      else asymptoticTerms ra y k (i + 1)
        ⟨s.gs + gs1, s.gt + gt1, s.ps + ps1, s.pt + pt1, gs1, gt1, ps1, pt1⟩

/-- Models the outer loop of `omGcase3`, `coh3-asympt.hpp:93-128`, with `k` retries left. -/
noncomputable def asymptoticSeries (y : ℝ) : ℕ → ℝ → Option AsymptoticSeries
  | k, ra =>
    let s := asymptoticTerms ra y 100 0 ⟨1, 0, 0, 1 - y / ra, 1, 0, 0, 1 - y / ra⟩
    if |s.gs * s.pt - s.ps * s.gt - 1| ≤ 1e-6 then some s
    else match k with
      | 0 => none
      | k + 1 => asymptoticSeries y k (ra + 5)

/-- Models `omGcase3`, `coh3-asympt.hpp:88-132`. The argument `ra` is only raised locally and `phi` is
not computed again. For `ra ≤ 0` (which needs a non-positive channel ratio) the model stops. -/
noncomputable def omGcase3 (ra y sig : ℝ) : Outcome (ℝ × ℝ) :=
  if ra ≤ 0 then .error .notFinite
  else
    let phi := ra - y * Real.log (2 * ra) + sig
    match asymptoticSeries y 100 ra with
    | none => .ok (0, 0)
    | some s => .ok (s.gs * Real.cos phi - s.gt * Real.sin phi,
        s.ps * Real.cos phi - s.pt * Real.sin phi)

/-- The phase `fai` of `omGcase4`, `coh3-asympt.hpp:147-155`, with `x = 2y/ra`. -/
noncomputable def riccati2Phase (y x : ℝ) : ℝ :=
  let x1 := 1 / (1 - x)
  let x2 := Real.sqrt (1 - x)
  let y1 := 1 / (2 * y)
  let y2 := y1 * y1
  let g0 := y2 * x1 * x1 * x1
  let g1 := -(x*(9*x-12)+8)/48
  let g2 := -(x*(x*(x*(x*(x*(-1890*x+7560)-12240)-13440)+16128)-9216)+2048)/92160
  let g3 := -(x*(x*(x*(x*(x*(x*(x*(x*(x*(130977*x-873180)+2487240)-3588480)+13520640)-9225216)
      +15178880)-11714560)+6389760)-1966080)+262144)/10321920
  let g4 := 2*y*(x2/x+0.5*Real.log ((1-x2)/(1+x2)))+PI_4
  g4+Real.sqrt g0*(g1+g0*(g2+g0*g3))

/-- The exponent `psi` of `omGcase4`, `coh3-asympt.hpp:147`, `157-162`. -/
noncomputable def riccati2Exponent (y x : ℝ) : ℝ :=
  let x1 := 1 / (1 - x)
  let y1 := 1 / (2 * y)
  let y2 := y1 * y1
  let g0 := y2 * x1 * x1 * x1 * (x * x)
  let g1 := -(8-3*x)/64
  let g2 := 3*(x*(x*(-39*x+208)-448)+1024)/8192
  let g3 := -(x*(x*(x*(x*(-5697*x+45576)-159552)+314624)-55296)+1105920)/393216
  x*g0*(g1+g0*(g2+g0*g3))

/-- The factor `a` of `omGcase4`, `coh3-asympt.hpp:147`, `157`, `164-168`. -/
noncomputable def riccati2A (y x : ℝ) : ℝ :=
  let x1 := 1 / (1 - x)
  let x2 := Real.sqrt (1 - x)
  let y1 := 1 / (2 * y)
  let y2 := y1 * y1
  let g0 := y2 * x1 * x1 * x1 * (x * x)
  let g1 := (8-3*x)/32
  let g2 := -(x*(x*(-63*x+336)-704)+1536)/2048
  let g3 := (x*(x*(x*(x*(-2079*x+16632)-57792)+114944)-30720)+368640)/65536
  x2/x*(1/x+g0*(g1+g0*(g2+g0*g3)))

/-- The factor `b` of `omGcase4`, `coh3-asympt.hpp:147`, `157`, `170-174`. -/
noncomputable def riccati2B (y x : ℝ) : ℝ :=
  let x1 := 1 / (1 - x)
  let y1 := 1 / (2 * y)
  let y2 := y1 * y1
  let g0 := y2 * x1 * x1 * x1 * (x * x)
  let g1 := -3*(x*(x-4)+8)/64
  let g2 := 3*(x*(x*(x*(39*x-260)+728)-832)+2560)/4096
  let g3 := -3*(x*(x*(x*(x*(x*(1899*x-17724)+73432)-177280)+308480)+196608)+860160)/131072
  x1*y1/4+g0*(g1+g0*(g2+g0*g3))

/-- Models `omGcase4`, `coh3-asympt.hpp:137-180`. Outside `0 < x < 1` the square roots and the
logarithm are not numbers; the callers stay inside. -/
noncomputable def omGcase4 (ra y : ℝ) : Outcome (ℝ × ℝ) :=
  let x := 2 * y / ra
  if 0 < x ∧ x < 1 then
    let x2 := Real.sqrt (1 - x)
    let m := 1 / Real.sqrt x2 * Real.exp (riccati2Exponent y x)
    let p0 := m * Real.cos (riccati2Phase y x)
    .ok (p0, -x*x*(riccati2A y x*m*Real.sin (riccati2Phase y x)+riccati2B y x*p0))
  else .error .notFinite

/-- Models the iteration inside `omNewmark`, `coh3-asympt.hpp:203-215`, with `k` passes left; the
result is `(g1, f1, r1)`, or nothing when the passes are used up. -/
noncomputable def newmarkStep (y x h r0 g0 f0 : ℝ) : ℕ → ℝ → Option (ℝ × ℝ × ℝ)
  | 0, _ => none
  | k + 1, r1 =>
    let h2 := h * h
    let bt := h2 * 0.1
    let f1 := f0 + h * (r0 + r1) / 2
    let g1 := g0 + h * f0 + h2 * r0 / 2 + bt * (r1 - r0)
    let s1 := (y / x - 1) * g1
    let e := if s1 ≠ 0 then |1 - r1 / s1| else |s1 - r1|
    if e > 1e-10 then newmarkStep y x h r0 g0 f0 k s1 else some (g1, f1, s1)

/-- Models the loop of `omNewmark` over the mesh points, `coh3-asympt.hpp:200-221`: `k` points left,
the next one is number `i`. -/
noncomputable def newmarkLoop (y h ra : ℝ) : ℕ → ℕ → ℝ → ℝ → ℝ → Outcome (ℝ × ℝ)
  | 0, _, g0, f0, _ => .ok (g0, f0)
  | k + 1, i, g0, f0, r0 =>
    let x := ra + i * h
    if x = 0 then .error .notFinite
    else match newmarkStep y x h r0 g0 f0 100 r0 with
      | none => .ok (0, 0)
      | some (g1, f1, r1) => newmarkLoop y h ra k (i + 1) g1 f1 r1

/-- Models `omNewmark`, `coh3-asympt.hpp:188-222`. -/
noncomputable def omNewmark (n : ℕ) (h y ra p0 p1 : ℝ) : Outcome (ℝ × ℝ) :=
  if ra = 0 then .error .notFinite
  else newmarkLoop (y * 2) (-h) ra n 1 p0 p1 ((y * 2 / ra - 1) * p0)

/-- The conversion `(int)x`: truncation towards zero, undefined when the result is not an `int`. -/
noncomputable def toInt (x : ℝ) : Outcome ℤ :=
  let z := if 0 ≤ x then ⌊x⌋ else ⌈x⌉
  if -2147483648 ≤ z ∧ z ≤ 2147483647 then .ok z else .error .undefined

/-- The radius `ra` at which `omAsymptotic` obtains its values and those values,
`coh3-asympt.hpp:233-260`. -/
noncomputable def asymptoticStart (rm coulomb sigma0 : ℝ) : Outcome (ℝ × ℝ × ℝ) :=
  if coulomb ≥ 15 then
    if 16 < rm then
      if rm ≤ 5 * coulomb / 3 - 5 then do
        let p ← omGcase1 rm coulomb
        pure (rm, p)
      else .ok (2 * coulomb, omGcase2 coulomb)
    else do
      let p ← omGcase1 16 coulomb
      pure (16, p)
  else if coulomb ≥ 5 then
    if 2 * coulomb < rm then do
      let ra := if 2.5 * coulomb + 7.5 < rm then rm else 2.5 * coulomb + 7.5
      let p ← omGcase4 ra coulomb
      pure (ra, p)
    else .ok (2 * coulomb, omGcase2 coulomb)
  else do
    let ra := if 2 * coulomb + 10 < rm then rm else 2 * coulomb + 10
    let p ← omGcase3 ra coulomb sigma0
    pure (ra, p)

/-- Models `omAsymptotic`, `coh3-asympt.hpp:228-271`. `std::abs` is that of `int`; `n` can be zero, in
which case `mesh` is infinite but not used. -/
noncomputable def omAsymptotic (rm coulomb sigma0 : ℝ) : Outcome (ℝ × ℝ) := do
  let (ra, p0, p1) ← asymptoticStart rm coulomb sigma0
  if p0 ≠ 0 ∧ p1 ≠ 0 then
    let dr := ra - rm
    if dr ≠ 0 then do
      let z ← toInt (dr / 0.01)
      if z = 2147483647 then .error .undefined
      else
        let n := (z + 1).natAbs
        let mesh := dr / n
        omNewmark n mesh coulomb ra p0 p1
    else pure (p0, p1)
  else pure (p0, p1)

/-! ## All angular momenta, `coh3-extwave.hpp` -/

/-- Models `omGfunction`, `coh3-extwave.hpp:14-20`; called with `l ≥ 1` and a non-zero `rho`. -/
noncomputable def omGfunction (l : ℕ) (eta rho g1 g2 : ℝ) : ℝ :=
  let j : ℝ := l
  let j1 : ℝ := (l + 1 : ℕ)
  ((j+j1)*(eta+j*j1/rho)*g2-j1*Real.sqrt (j*j+eta*eta)*g1)/(j*Real.sqrt (j1*j1+eta*eta))

/-- Models `omFfunction`, `coh3-extwave.hpp:25-31`; called with `l ≥ 1` and a non-zero `rho`. -/
noncomputable def omFfunction (l : ℕ) (eta rho g1 g2 : ℝ) : ℝ :=
  let j : ℝ := l
  let j1 : ℝ := (l + 1 : ℕ)
  ((j+j1)*(eta+j*j1/rho)*g2-j*Real.sqrt (j1*j1+eta*eta)*g1)/(j1*Real.sqrt (j*j+eta*eta))

/-- Models `omDfunction`, `coh3-extwave.hpp:36-40`; called with a non-zero `rho`. -/
noncomputable def omDfunction (l : ℕ) (eta rho g1 g2 : ℝ) : ℝ :=
  let j1 : ℝ := (l + 1 : ℕ)
  ((eta+j1*j1/rho)*g1-Real.sqrt (j1*j1+eta*eta)*g2)/j1

/-- The arrays `Cou0` and `Cou1` of `MAX_L = 60` complex numbers, `coh3-coulomb.hpp:12`, `30-31`. -/
abbrev Cells := ℕ → ℂ

/-- Reading an element of an array of `MAX_L` elements. -/
def Cells.read (a : Cells) (i : ℕ) : Outcome ℂ :=
  if i < 60 then .ok (a i) else .error .undefined

/-- Writing an element of an array of `MAX_L` elements. -/
def Cells.write (a : Cells) (i : ℕ) (z : ℂ) : Outcome Cells :=
  if i < 60 then .ok (Function.update a i z) else .error .undefined

/-- Writing the imaginary part of an element, `wfn[i].imag(x)`. -/
def Cells.writeImag (a : Cells) (i : ℕ) (x : ℝ) : Outcome Cells :=
  a.write i ⟨(a i).re, x⟩

/-- Models the loop `coh3-extwave.hpp:71-76` that fills in `G` upwards, with `k` passes left; returns
the array and the final value of `l`. A vanishing `p3` makes the quotient infinite and the comparison
false. -/
noncomputable def upwardLoop (eta rho a : ℝ) (lmax : ℕ) :
    ℕ → ℕ → ℝ → ℝ → Cells → Outcome (Cells × ℕ)
  | 0, l, _, _, wfn => .ok (wfn, l)
  | k + 1, l, p1, p2, wfn => do
    let p3 := omGfunction l eta rho p1 p2
    let wfn ← wfn.write (l + 1) ⟨p3, 0⟩
    if (p3 ≠ 0 ∧ a / (p3 * p3) < 1e-10) ∧ lmax ≤ l then pure (wfn, l)
    else upwardLoop eta rho a lmax k (l + 1) p2 p3 wfn

/-- Models the loop `coh3-extwave.hpp:85-89` that fills in multiples of `F` downwards from `l`. -/
noncomputable def downwardLoop (eta rho : ℝ) (lmax : ℕ) : ℕ → ℝ → ℝ → Cells → Outcome Cells
  | 0, _, _, wfn => .ok wfn
  | l + 1, p1, p2, wfn => do
    let p3 := omFfunction (l + 1) eta rho p1 p2
    let wfn ← if l + 1 ≤ lmax + 2 then wfn.writeImag l p3 else .ok wfn
    downwardLoop eta rho lmax l p2 p3 wfn

/-- Models the loop `coh3-extwave.hpp:95`, with `k` passes left. -/
noncomputable def scaleLoop (a : ℝ) : ℕ → ℕ → Cells → Outcome Cells
  | 0, _, wfn => .ok wfn
  | k + 1, l, wfn => do
    let z ← wfn.read l
    let wfn ← wfn.writeImag l (z.im * a)
    scaleLoop a k (l + 1) wfn

/-- Models the loop `coh3-extwave.hpp:96-110` over the derivatives, with `k` passes left; the flag says
whether the Wronskian test failed. -/
noncomputable def derivativeLoop (eta rho : ℝ) (wfn : Cells) :
    ℕ → ℕ → Cells → Outcome (Cells × Bool)
  | 0, _, dfn => .ok (dfn, false)
  | k + 1, l, dfn => do
    let z ← wfn.read l
    let z1 ← wfn.read (l + 1)
    let d : ℂ := ⟨omDfunction l eta rho z.re z1.re, omDfunction l eta rho z.im z1.im⟩
    let dfn ← dfn.write l d
    let a := d.im * z.re - d.re * z.im
    if |a - 1| > 1e-6 then pure (dfn, true)
    else derivativeLoop eta rho wfn k (l + 1) dfn

/-- Models the loop `coh3-extwave.hpp:82-115` around the computation of `F`. -/
noncomputable def regularLoop (eta rho g0 g1 : ℝ) (lmax l0 : ℕ) (wfn dfn : Cells) :
    Outcome (Cells × Cells) := do
  let wfn ← downwardLoop eta rho lmax l0 0 1e-36 wfn
  let z0 ← wfn.read 0
  let z1 ← wfn.read 1
  let w := (z0.im * g1 - g0 * z1.im) * Real.sqrt (1 + eta * eta)
  if w = 0 then .error .notFinite
  else do
    let wfn ← scaleLoop (1 / w) (lmax + 2) 0 wfn
    let (dfn, flag) ← derivativeLoop eta rho wfn (lmax + 1) 0 dfn
    if flag then
      if h : l0 + 10 > 100 then .error .throws
      else regularLoop eta rho g0 g1 lmax (l0 + 10) wfn dfn
    else if l0 > 100 then .error .throws
    else .ok (wfn, dfn)
termination_by 101 - l0

/-- Models the part of `omExternalFunction` after the starting values, `coh3-extwave.hpp:69-115`. -/
noncomputable def externalFromStart (lmax : ℕ) (rho coulomb g0 g1 : ℝ) (wfn dfn : Cells) :
    Outcome (Cells × Cells) := do
  let a := if coulomb = 0 then 1 else max (g0 * g0) (g1 * g1)
  let (wfn, l) ← upwardLoop coulomb rho a lmax 58 1 g0 g1 wfn
  let lmax := if l = 59 then l - 1 else l
  regularLoop coulomb rho g0 g1 lmax (lmax + 10) wfn dfn

/-- Models `omExternalFunction`, `coh3-extwave.hpp:46-118`, on arrays that start as zeros; the returned
integer is not used by the caller. A vanishing `rho_match` leads to a division by zero. -/
noncomputable def omExternalFunction (lmax : ℕ) (rho coulomb sigma0 : ℝ) (wfn dfn : Cells) :
    Outcome (Cells × Cells) :=
  if coulomb = 0 then
    if rho = 0 then .error .notFinite
    else do
      let g0 := Real.cos rho
      let g1 := g0 / rho + Real.sin rho
      let wfn ← wfn.write 0 ⟨g0, 0⟩
      let wfn ← wfn.write 1 ⟨g1, 0⟩
      externalFromStart lmax rho coulomb g0 g1 wfn dfn
  else do
    let (p1, p2) ← omAsymptotic rho coulomb sigma0
    if p1 = 0 ∧ p2 = 0 then do
      let wfn ← wfn.write 0 0
      pure (wfn, dfn)
    else if rho = 0 then .error .notFinite
    else do
      let g0 := p1
      let g1 := ((coulomb + 1 / rho) * p1 - p2) / Real.sqrt (1 + coulomb * coulomb)
      let wfn ← wfn.write 0 ⟨g0, 0⟩
      let wfn ← wfn.write 1 ⟨g1, 0⟩
      externalFromStart lmax rho coulomb g0 g1 wfn dfn

/-- The phase `sigma0` of `coulombWaveFunctions`, `coh3-coulomb.hpp:22-28`. -/
noncomputable def coulombSigma0 (eta : ℝ) : ℝ :=
  let y2 := eta * eta
  let y3 := 16 + y2
  let y4 := y3 * y3
  eta * Real.log y3 / 2 - eta + 3.5 * Real.arctan (eta / 4)
    - (Real.arctan eta + Real.arctan (eta / 2) + Real.arctan (eta / 3))
    - eta * (1 + (y2 - 48) / (30 * y4) + (y2 * y2 - 160 * y2 + 1280) / (105 * y4 * y4)) / (12 * y3)

/-- Models `coulombWaveFunctions`, `coh3-coulomb.hpp:18-38`. -/
noncomputable def coulombWaveFunctions : CoulombLibrary := fun l ratio eta => do
  let (wfn, dfn) ← omExternalFunction l ratio eta (coulombSigma0 eta) (fun _ => 0) (fun _ => 0)
  let gf ← wfn.read l
  let dgf ← dfn.read l
  pure ⟨gf.re, gf.im, dgf.re, dgf.im⟩

end Verif
