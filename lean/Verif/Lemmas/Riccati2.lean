import Verif.Model.Coulomb
import Mathlib.Analysis.SpecialFunctions.Sqrt
import Mathlib.Analysis.SpecialFunctions.ExpDeriv
import Mathlib.Analysis.SpecialFunctions.Log.Deriv
import Mathlib.Analysis.SpecialFunctions.Trigonometric.Deriv
import Mathlib.Analysis.Calculus.Deriv.Inv
import Mathlib.Analysis.Calculus.Deriv.Pow

/-!
# The expansion of the irregular Coulomb function above the turning point

Phase, amplitude and derivative of `omGcase4` as polynomials in `x` and `z = 1 / (2 y (1-x)^(3/2))`.
-/

namespace Verif.Riccati2

/-- The terms of the phase after the leading one. -/
noncomputable def phi (z x : ℝ) : ℝ :=
  z * (-3 / 16 * x ^ 2 + 1 / 4 * x - 1 / 6) + z ^ 3 * (21 / 1024 * x ^ 6 - 21 / 256 * x ^ 5 + 17
    / 128 * x ^ 4 + 7 / 48 * x ^ 3 - 7 / 40 * x ^ 2 + 1 / 10 * x - 1 / 45) + z ^ 5 * (-2079 /
    163840 * x ^ 10 + 693 / 8192 * x ^ 9 - 987 / 4096 * x ^ 8 + 89 / 256 * x ^ 7 - 503 / 384 * x
    ^ 6 + 143 / 160 * x ^ 5 - 23717 / 16128 * x ^ 4 + 143 / 126 * x ^ 3 - 13 / 21 * x ^ 2 + 4 /
    21 * x - 8 / 315)

/-- The exponent of the amplitude. -/
noncomputable def psi (z x : ℝ) : ℝ :=
  z ^ 2 * (3 / 64 * x ^ 4 - 1 / 8 * x ^ 3) + z ^ 4 * (-117 / 8192 * x ^ 8 + 39 / 512 * x ^ 7 - 21
    / 128 * x ^ 6 + 3 / 8 * x ^ 5) + z ^ 6 * (1899 / 131072 * x ^ 12 - 1899 / 16384 * x ^ 11 +
    831 / 2048 * x ^ 10 - 1229 / 1536 * x ^ 9 + 9 / 64 * x ^ 8 - 45 / 16 * x ^ 7)

/-- The derivative of the phase, over `√(1-x)`. -/
noncomputable def P (z x : ℝ) : ℝ :=
  1 + (z ^ 2 * (-3 / 32 * x ^ 4 + 1 / 4 * x ^ 3) + z ^ 4 * (63 / 2048 * x ^ 8 - 21 / 128 * x ^ 7
    + 11 / 32 * x ^ 6 - 3 / 4 * x ^ 5) + z ^ 6 * (-2079 / 65536 * x ^ 12 + 2079 / 8192 * x ^ 11 -
    903 / 1024 * x ^ 10 + 449 / 256 * x ^ 9 - 15 / 32 * x ^ 8 + 45 / 8 * x ^ 7 + 3125 / 4608 * x
    ^ 6 + 3125 / 4032 * x ^ 5))

/-- Minus the logarithmic derivative of the amplitude, over `√(1-x)`. -/
noncomputable def B (z x : ℝ) : ℝ :=
  z * (1 / 4 * x ^ 2) + z ^ 3 * (-3 / 64 * x ^ 6 + 3 / 16 * x ^ 5 - 3 / 8 * x ^ 4) + z ^ 5 * (117
    / 4096 * x ^ 10 - 195 / 1024 * x ^ 9 + 273 / 512 * x ^ 8 - 39 / 64 * x ^ 7 + 15 / 8 * x ^ 6)
    + z ^ 7 * (-5697 / 131072 * x ^ 14 + 13293 / 32768 * x ^ 13 - 27537 / 16384 * x ^ 12 + 4155 /
    1024 * x ^ 11 - 3615 / 512 * x ^ 10 - 9 / 2 * x ^ 9 - 315 / 16 * x ^ 8)

/-- What the code has in the place of `P`. -/
noncomputable def codeP (z x : ℝ) : ℝ :=
  1 + (z ^ 2 * (-3 / 32 * x ^ 4 + 1 / 4 * x ^ 3) + z ^ 4 * (63 / 2048 * x ^ 8 - 21 / 128 * x ^ 7
    + 11 / 32 * x ^ 6 - 3 / 4 * x ^ 5) + z ^ 6 * (-2079 / 65536 * x ^ 12 + 2079 / 8192 * x ^ 11 -
    903 / 1024 * x ^ 10 + 449 / 256 * x ^ 9 - 15 / 32 * x ^ 8 + 45 / 8 * x ^ 7))

/-- The correction to `x^2 z / 4` in `B`, as the code has it. -/
noncomputable def corr (z x : ℝ) : ℝ :=
  z ^ 2 * (-3 / 64 * x ^ 4 + 3 / 16 * x ^ 3 - 3 / 8 * x ^ 2) + z ^ 4 * (117 / 4096 * x ^ 8 - 195
    / 1024 * x ^ 7 + 273 / 512 * x ^ 6 - 39 / 64 * x ^ 5 + 15 / 8 * x ^ 4) + z ^ 6 * (-5697 /
    131072 * x ^ 12 + 13293 / 32768 * x ^ 11 - 27537 / 16384 * x ^ 10 + 4155 / 1024 * x ^ 9 -
    3615 / 512 * x ^ 8 - 9 / 2 * x ^ 7 - 315 / 16 * x ^ 6)

/-- The relative defect of the wave equation, part in phase. -/
noncomputable def d1 (z x : ℝ) : ℝ :=
  z ^ 6 * (3125 / 2304 * x ^ 6 + 3125 / 2016 * x ^ 5) + z ^ 8 * (-597915 / 4194304 * x ^ 16 +
    199305 / 131072 * x ^ 15 - 239589 / 32768 * x ^ 14 + 85479 / 4096 * x ^ 13 - 79811 / 2048 * x
    ^ 12 + 4761 / 64 * x ^ 11 + 2319307 / 24576 * x ^ 10 + 2543285 / 16128 * x ^ 9 + 3125 / 8064
    * x ^ 8) + z ^ 10 * (-459189 / 67108864 * x ^ 20 + 765315 / 8388608 * x ^ 19 - 297981 /
    524288 * x ^ 18 + 142353 / 65536 * x ^ 17 - 1483437 / 262144 * x ^ 16 + 158293 / 16384 * x ^
    15 - 6596365 / 524288 * x ^ 14 + 2101433 / 196608 * x ^ 13 - 1954295 / 73728 * x ^ 12 - 15625
    / 32256 * x ^ 11 - 3125 / 2688 * x ^ 10) + z ^ 12 * (14987025 / 4294967296 * x ^ 24 -
    14987025 / 268435456 * x ^ 23 + 27999675 / 67108864 * x ^ 22 - 16075755 / 8388608 * x ^ 21 +
    25568829 / 4194304 * x ^ 20 - 7348857 / 524288 * x ^ 19 + 417805741 / 16777216 * x ^ 18 -
    39626049 / 1048576 * x ^ 17 + 24039671 / 393216 * x ^ 16 - 6712565 / 589824 * x ^ 15 +
    6938375 / 64512 * x ^ 14 + 296875 / 43008 * x ^ 13 + 1364359375 / 148635648 * x ^ 12 +
    9765625 / 9289728 * x ^ 11 + 9765625 / 16257024 * x ^ 10) + z ^ 14 * (-32455809 / 17179869184
    * x ^ 28 + 75730221 / 2147483648 * x ^ 27 - 166791069 / 536870912 * x ^ 26 + 460733481 /
    268435456 * x ^ 25 - 1806762249 / 268435456 * x ^ 24 + 79594479 / 4194304 * x ^ 23 -
    160467039 / 4194304 * x ^ 22 + 3810573 / 65536 * x ^ 21 - 20843415 / 262144 * x ^ 20 + 788265
    / 8192 * x ^ 19 - 1221669 / 4096 * x ^ 18 - 2835 / 16 * x ^ 17 - 99225 / 256 * x ^ 16)

/-- The relative defect of the wave equation, part out of phase. -/
noncomputable def d2 (z x : ℝ) : ℝ :=
  z ^ 5 * (9 / 2048 * x ^ 10 - 15 / 512 * x ^ 9 + 21 / 256 * x ^ 8 - 3 / 32 * x ^ 7) + z ^ 7 *
    (3125 / 1536 * x ^ 8 + 115625 / 16128 * x ^ 7 + 15625 / 4032 * x ^ 6) + z ^ 9 * (54027 /
    4194304 * x ^ 18 - 162081 / 1048576 * x ^ 17 + 437535 / 524288 * x ^ 16 - 175167 / 65536 * x
    ^ 15 + 46557 / 8192 * x ^ 14 - 837 / 128 * x ^ 13 + 296971 / 49152 * x ^ 12 - 1435895 / 86016
    * x ^ 11 - 3125 / 14336 * x ^ 10 - 3125 / 5376 * x ^ 9) + z ^ 11 * (-301077 / 67108864 * x ^
    22 + 1103949 / 16777216 * x ^ 21 - 3751893 / 8388608 * x ^ 20 + 495603 / 262144 * x ^ 19 -
    2932461 / 524288 * x ^ 18 + 769869 / 65536 * x ^ 17 - 19632655 / 1048576 * x ^ 16 + 148030067
    / 5505024 * x ^ 15 - 41206259 / 2752512 * x ^ 14 + 405 / 8 * x ^ 13 + 34375 / 21504 * x ^ 12
    + 15625 / 5376 * x ^ 11) + z ^ 13 * (11844063 / 4294967296 * x ^ 26 - 51324273 / 1073741824 *
    x ^ 25 + 208949139 / 536870912 * x ^ 24 - 132772041 / 67108864 * x ^ 23 + 116358255 /
    16777216 * x ^ 22 - 18055923 / 1048576 * x ^ 21 + 1064729139 / 33554432 * x ^ 20 - 2880382747
    / 58720256 * x ^ 19 + 875189213 / 12582912 * x ^ 18 - 1556537345 / 11010048 * x ^ 17 -
    32529865 / 917504 * x ^ 16 - 82070425 / 344064 * x ^ 15 - 965625 / 28672 * x ^ 14 - 15625 /
    512 * x ^ 13)

theorem phi_deriv {X Z : ℝ → ℝ} {x' z' r : ℝ} (hx : HasDerivAt X x' r) (hz : HasDerivAt Z z' r) :
    HasDerivAt (fun r => phi (Z r) (X r))
      ((Z r ^ 1 * ((-3 / 8 * X r + 1 / 4) * x') + 1 * Z r ^ 0 * z' * (-3 / 16 * X r ^ 2 + 1 / 4 *
        X r - 1 / 6)) + (Z r ^ 3 * ((63 / 512 * X r ^ 5 - 105 / 256 * X r ^ 4 + 17 / 32 * X r ^ 3
        + 7 / 16 * X r ^ 2 - 7 / 20 * X r + 1 / 10) * x') + 3 * Z r ^ 2 * z' * (21 / 1024 * X r ^
        6 - 21 / 256 * X r ^ 5 + 17 / 128 * X r ^ 4 + 7 / 48 * X r ^ 3 - 7 / 40 * X r ^ 2 + 1 /
        10 * X r - 1 / 45)) + (Z r ^ 5 * ((-2079 / 16384 * X r ^ 9 + 6237 / 8192 * X r ^ 8 - 987
        / 512 * X r ^ 7 + 623 / 256 * X r ^ 6 - 503 / 64 * X r ^ 5 + 143 / 32 * X r ^ 4 - 23717 /
        4032 * X r ^ 3 + 143 / 42 * X r ^ 2 - 26 / 21 * X r + 4 / 21) * x') + 5 * Z r ^ 4 * z' *
        (-2079 / 163840 * X r ^ 10 + 693 / 8192 * X r ^ 9 - 987 / 4096 * X r ^ 8 + 89 / 256 * X r
        ^ 7 - 503 / 384 * X r ^ 6 + 143 / 160 * X r ^ 5 - 23717 / 16128 * X r ^ 4 + 143 / 126 * X
        r ^ 3 - 13 / 21 * X r ^ 2 + 4 / 21 * X r - 8 / 315))) r := by
  have c1 : HasDerivAt (fun r => -3 / 16 * X r ^ 2 + 1 / 4 * X r - 1 / 6) _ r :=
    (((hx.fun_pow 2).const_mul (-3 / 16)).fun_add (hx.const_mul (1 / 4))).sub_const (1 / 6)
  have c3 : HasDerivAt (fun r => 21 / 1024 * X r ^ 6 - 21 / 256 * X r ^ 5 + 17 / 128 * X r ^ 4 +
    7 / 48 * X r ^ 3 - 7 / 40 * X r ^ 2 + 1 / 10 * X r - 1 / 45) _ r :=
    (((((((hx.fun_pow 6).const_mul (21 / 1024)).fun_sub ((hx.fun_pow 5).const_mul (21 /
      256))).fun_add ((hx.fun_pow 4).const_mul (17 / 128))).fun_add ((hx.fun_pow 3).const_mul (7
      / 48))).fun_sub ((hx.fun_pow 2).const_mul (7 / 40))).fun_add (hx.const_mul (1 /
      10))).sub_const (1 / 45)
  have c5 : HasDerivAt (fun r => -2079 / 163840 * X r ^ 10 + 693 / 8192 * X r ^ 9 - 987 / 4096 *
    X r ^ 8 + 89 / 256 * X r ^ 7 - 503 / 384 * X r ^ 6 + 143 / 160 * X r ^ 5 - 23717 / 16128 * X
    r ^ 4 + 143 / 126 * X r ^ 3 - 13 / 21 * X r ^ 2 + 4 / 21 * X r - 8 / 315) _ r :=
    (((((((((((hx.fun_pow 10).const_mul (-2079 / 163840)).fun_add ((hx.fun_pow 9).const_mul (693
      / 8192))).fun_sub ((hx.fun_pow 8).const_mul (987 / 4096))).fun_add ((hx.fun_pow
      7).const_mul (89 / 256))).fun_sub ((hx.fun_pow 6).const_mul (503 / 384))).fun_add
      ((hx.fun_pow 5).const_mul (143 / 160))).fun_sub ((hx.fun_pow 4).const_mul (23717 /
      16128))).fun_add ((hx.fun_pow 3).const_mul (143 / 126))).fun_sub ((hx.fun_pow 2).const_mul
      (13 / 21))).fun_add (hx.const_mul (4 / 21))).sub_const (8 / 315)
  refine HasDerivAt.congr_deriv ((((hz.fun_mul c1)).fun_add ((hz.fun_pow 3).fun_mul c3)).fun_add
    ((hz.fun_pow 5).fun_mul c5)) ?_
  push_cast
  ring

theorem psi_deriv {X Z : ℝ → ℝ} {x' z' r : ℝ} (hx : HasDerivAt X x' r) (hz : HasDerivAt Z z' r) :
    HasDerivAt (fun r => psi (Z r) (X r))
      ((Z r ^ 2 * ((3 / 16 * X r ^ 3 - 3 / 8 * X r ^ 2) * x') + 2 * Z r ^ 1 * z' * (3 / 64 * X r
        ^ 4 - 1 / 8 * X r ^ 3)) + (Z r ^ 4 * ((-117 / 1024 * X r ^ 7 + 273 / 512 * X r ^ 6 - 63 /
        64 * X r ^ 5 + 15 / 8 * X r ^ 4) * x') + 4 * Z r ^ 3 * z' * (-117 / 8192 * X r ^ 8 + 39 /
        512 * X r ^ 7 - 21 / 128 * X r ^ 6 + 3 / 8 * X r ^ 5)) + (Z r ^ 6 * ((5697 / 32768 * X r
        ^ 11 - 20889 / 16384 * X r ^ 10 + 4155 / 1024 * X r ^ 9 - 3687 / 512 * X r ^ 8 + 9 / 8 *
        X r ^ 7 - 315 / 16 * X r ^ 6) * x') + 6 * Z r ^ 5 * z' * (1899 / 131072 * X r ^ 12 - 1899
        / 16384 * X r ^ 11 + 831 / 2048 * X r ^ 10 - 1229 / 1536 * X r ^ 9 + 9 / 64 * X r ^ 8 -
        45 / 16 * X r ^ 7))) r := by
  have c2 : HasDerivAt (fun r => 3 / 64 * X r ^ 4 - 1 / 8 * X r ^ 3) _ r :=
    ((hx.fun_pow 4).const_mul (3 / 64)).fun_sub ((hx.fun_pow 3).const_mul (1 / 8))
  have c4 : HasDerivAt (fun r => -117 / 8192 * X r ^ 8 + 39 / 512 * X r ^ 7 - 21 / 128 * X r ^ 6
    + 3 / 8 * X r ^ 5) _ r :=
    ((((hx.fun_pow 8).const_mul (-117 / 8192)).fun_add ((hx.fun_pow 7).const_mul (39 /
      512))).fun_sub ((hx.fun_pow 6).const_mul (21 / 128))).fun_add ((hx.fun_pow 5).const_mul (3
      / 8))
  have c6 : HasDerivAt (fun r => 1899 / 131072 * X r ^ 12 - 1899 / 16384 * X r ^ 11 + 831 / 2048
    * X r ^ 10 - 1229 / 1536 * X r ^ 9 + 9 / 64 * X r ^ 8 - 45 / 16 * X r ^ 7) _ r :=
    ((((((hx.fun_pow 12).const_mul (1899 / 131072)).fun_sub ((hx.fun_pow 11).const_mul (1899 /
      16384))).fun_add ((hx.fun_pow 10).const_mul (831 / 2048))).fun_sub ((hx.fun_pow
      9).const_mul (1229 / 1536))).fun_add ((hx.fun_pow 8).const_mul (9 / 64))).fun_sub
      ((hx.fun_pow 7).const_mul (45 / 16))
  refine HasDerivAt.congr_deriv (((((hz.fun_pow 2).fun_mul c2)).fun_add ((hz.fun_pow 4).fun_mul
    c4)).fun_add ((hz.fun_pow 6).fun_mul c6)) ?_
  push_cast
  ring

theorem P_deriv {X Z : ℝ → ℝ} {x' z' r : ℝ} (hx : HasDerivAt X x' r) (hz : HasDerivAt Z z' r) :
    HasDerivAt (fun r => P (Z r) (X r))
      ((Z r ^ 2 * ((-3 / 8 * X r ^ 3 + 3 / 4 * X r ^ 2) * x') + 2 * Z r ^ 1 * z' * (-3 / 32 * X r
        ^ 4 + 1 / 4 * X r ^ 3)) + (Z r ^ 4 * ((63 / 256 * X r ^ 7 - 147 / 128 * X r ^ 6 + 33 / 16
        * X r ^ 5 - 15 / 4 * X r ^ 4) * x') + 4 * Z r ^ 3 * z' * (63 / 2048 * X r ^ 8 - 21 / 128
        * X r ^ 7 + 11 / 32 * X r ^ 6 - 3 / 4 * X r ^ 5)) + (Z r ^ 6 * ((-6237 / 16384 * X r ^ 11
        + 22869 / 8192 * X r ^ 10 - 4515 / 512 * X r ^ 9 + 4041 / 256 * X r ^ 8 - 15 / 4 * X r ^
        7 + 315 / 8 * X r ^ 6 + 3125 / 768 * X r ^ 5 + 15625 / 4032 * X r ^ 4) * x') + 6 * Z r ^
        5 * z' * (-2079 / 65536 * X r ^ 12 + 2079 / 8192 * X r ^ 11 - 903 / 1024 * X r ^ 10 + 449
        / 256 * X r ^ 9 - 15 / 32 * X r ^ 8 + 45 / 8 * X r ^ 7 + 3125 / 4608 * X r ^ 6 + 3125 /
        4032 * X r ^ 5))) r := by
  have c2 : HasDerivAt (fun r => -3 / 32 * X r ^ 4 + 1 / 4 * X r ^ 3) _ r :=
    ((hx.fun_pow 4).const_mul (-3 / 32)).fun_add ((hx.fun_pow 3).const_mul (1 / 4))
  have c4 : HasDerivAt (fun r => 63 / 2048 * X r ^ 8 - 21 / 128 * X r ^ 7 + 11 / 32 * X r ^ 6 - 3
    / 4 * X r ^ 5) _ r :=
    ((((hx.fun_pow 8).const_mul (63 / 2048)).fun_sub ((hx.fun_pow 7).const_mul (21 /
      128))).fun_add ((hx.fun_pow 6).const_mul (11 / 32))).fun_sub ((hx.fun_pow 5).const_mul (3 /
      4))
  have c6 : HasDerivAt (fun r => -2079 / 65536 * X r ^ 12 + 2079 / 8192 * X r ^ 11 - 903 / 1024 *
    X r ^ 10 + 449 / 256 * X r ^ 9 - 15 / 32 * X r ^ 8 + 45 / 8 * X r ^ 7 + 3125 / 4608 * X r ^ 6
    + 3125 / 4032 * X r ^ 5) _ r :=
    ((((((((hx.fun_pow 12).const_mul (-2079 / 65536)).fun_add ((hx.fun_pow 11).const_mul (2079 /
      8192))).fun_sub ((hx.fun_pow 10).const_mul (903 / 1024))).fun_add ((hx.fun_pow 9).const_mul
      (449 / 256))).fun_sub ((hx.fun_pow 8).const_mul (15 / 32))).fun_add ((hx.fun_pow
      7).const_mul (45 / 8))).fun_add ((hx.fun_pow 6).const_mul (3125 / 4608))).fun_add
      ((hx.fun_pow 5).const_mul (3125 / 4032))
  refine HasDerivAt.congr_deriv ((((((hz.fun_pow 2).fun_mul c2)).fun_add ((hz.fun_pow 4).fun_mul
    c4)).fun_add ((hz.fun_pow 6).fun_mul c6)).const_add 1) ?_
  push_cast
  ring

theorem B_deriv {X Z : ℝ → ℝ} {x' z' r : ℝ} (hx : HasDerivAt X x' r) (hz : HasDerivAt Z z' r) :
    HasDerivAt (fun r => B (Z r) (X r))
      ((Z r ^ 1 * ((1 / 2 * X r) * x') + 1 * Z r ^ 0 * z' * (1 / 4 * X r ^ 2)) + (Z r ^ 3 * ((-9
        / 32 * X r ^ 5 + 15 / 16 * X r ^ 4 - 3 / 2 * X r ^ 3) * x') + 3 * Z r ^ 2 * z' * (-3 / 64
        * X r ^ 6 + 3 / 16 * X r ^ 5 - 3 / 8 * X r ^ 4)) + (Z r ^ 5 * ((585 / 2048 * X r ^ 9 -
        1755 / 1024 * X r ^ 8 + 273 / 64 * X r ^ 7 - 273 / 64 * X r ^ 6 + 45 / 4 * X r ^ 5) * x')
        + 5 * Z r ^ 4 * z' * (117 / 4096 * X r ^ 10 - 195 / 1024 * X r ^ 9 + 273 / 512 * X r ^ 8
        - 39 / 64 * X r ^ 7 + 15 / 8 * X r ^ 6)) + (Z r ^ 7 * ((-39879 / 65536 * X r ^ 13 +
        172809 / 32768 * X r ^ 12 - 82611 / 4096 * X r ^ 11 + 45705 / 1024 * X r ^ 10 - 18075 /
        256 * X r ^ 9 - 81 / 2 * X r ^ 8 - 315 / 2 * X r ^ 7) * x') + 7 * Z r ^ 6 * z' * (-5697 /
        131072 * X r ^ 14 + 13293 / 32768 * X r ^ 13 - 27537 / 16384 * X r ^ 12 + 4155 / 1024 * X
        r ^ 11 - 3615 / 512 * X r ^ 10 - 9 / 2 * X r ^ 9 - 315 / 16 * X r ^ 8))) r := by
  have c1 : HasDerivAt (fun r => 1 / 4 * X r ^ 2) _ r :=
    (hx.fun_pow 2).const_mul (1 / 4)
  have c3 : HasDerivAt (fun r => -3 / 64 * X r ^ 6 + 3 / 16 * X r ^ 5 - 3 / 8 * X r ^ 4) _ r :=
    (((hx.fun_pow 6).const_mul (-3 / 64)).fun_add ((hx.fun_pow 5).const_mul (3 / 16))).fun_sub
      ((hx.fun_pow 4).const_mul (3 / 8))
  have c5 : HasDerivAt (fun r => 117 / 4096 * X r ^ 10 - 195 / 1024 * X r ^ 9 + 273 / 512 * X r ^
    8 - 39 / 64 * X r ^ 7 + 15 / 8 * X r ^ 6) _ r :=
    (((((hx.fun_pow 10).const_mul (117 / 4096)).fun_sub ((hx.fun_pow 9).const_mul (195 /
      1024))).fun_add ((hx.fun_pow 8).const_mul (273 / 512))).fun_sub ((hx.fun_pow 7).const_mul
      (39 / 64))).fun_add ((hx.fun_pow 6).const_mul (15 / 8))
  have c7 : HasDerivAt (fun r => -5697 / 131072 * X r ^ 14 + 13293 / 32768 * X r ^ 13 - 27537 /
    16384 * X r ^ 12 + 4155 / 1024 * X r ^ 11 - 3615 / 512 * X r ^ 10 - 9 / 2 * X r ^ 9 - 315 /
    16 * X r ^ 8) _ r :=
    (((((((hx.fun_pow 14).const_mul (-5697 / 131072)).fun_add ((hx.fun_pow 13).const_mul (13293 /
      32768))).fun_sub ((hx.fun_pow 12).const_mul (27537 / 16384))).fun_add ((hx.fun_pow
      11).const_mul (4155 / 1024))).fun_sub ((hx.fun_pow 10).const_mul (3615 / 512))).fun_sub
      ((hx.fun_pow 9).const_mul (9 / 2))).fun_sub ((hx.fun_pow 8).const_mul (315 / 16))
  refine HasDerivAt.congr_deriv (((((hz.fun_mul c1)).fun_add ((hz.fun_pow 3).fun_mul c3)).fun_add
    ((hz.fun_pow 5).fun_mul c5)).fun_add ((hz.fun_pow 7).fun_mul c7)) ?_
  push_cast
  ring

theorem d1_bound {z x : ℝ} (z0 : 0 ≤ z) (z1 : z ≤ 2829 / 10000) (x0 : 0 ≤ x) (x1 : x ≤ 2 / 3) :
    |d1 z x| ≤ 47 / 100000 := by
  have nn (i j : ℕ) : 0 ≤ x ^ i * z ^ j := by positivity
  have key (i j : ℕ) {M : ℝ} (h : (2 / 3) ^ i * (2829 / 10000) ^ j ≤ M) : x ^ i * z ^ j ≤ M :=
    (mul_le_mul (pow_le_pow_left₀ x0 x1 i) (pow_le_pow_left₀ z0 z1 j) (by positivity)
      (by positivity)).trans h
  have k0 := key 5 6 (M := 6751 / 100000000) (by norm_num)
  have l0 := nn 5 6
  have k1 := key 6 6 (M := 4501 / 100000000) (by norm_num)
  have l1 := nn 6 6
  have k2 := key 8 8 (M := 1601 / 1000000000) (by norm_num)
  have l2 := nn 8 8
  have k3 := key 9 8 (M := 267 / 250000000) (by norm_num)
  have l3 := nn 9 8
  have k4 := key 10 8 (M := 1423 / 2000000000) (by norm_num)
  have l4 := nn 10 8
  have k5 := key 10 10 (M := 2847 / 50000000000) (by norm_num)
  have l5 := nn 10 10
  have k6 := key 10 12 (M := 2279 / 500000000000) (by norm_num)
  have l6 := nn 10 12
  have k7 := key 11 8 (M := 593 / 1250000000) (by norm_num)
  have l7 := nn 11 8
  have k8 := key 11 10 (M := 949 / 25000000000) (by norm_num)
  have l8 := nn 11 10
  have k9 := key 11 12 (M := 3039 / 1000000000000) (by norm_num)
  have l9 := nn 11 12
  have k10 := key 12 8 (M := 3163 / 10000000000) (by norm_num)
  have l10 := nn 12 8
  have k11 := key 12 10 (M := 2531 / 100000000000) (by norm_num)
  have l11 := nn 12 10
  have k12 := key 12 12 (M := 1013 / 500000000000) (by norm_num)
  have l12 := nn 12 12
  have k13 := key 13 8 (M := 2109 / 10000000000) (by norm_num)
  have l13 := nn 13 8
  have k14 := key 13 10 (M := 211 / 12500000000) (by norm_num)
  have l14 := nn 13 10
  have k15 := key 13 12 (M := 1351 / 1000000000000) (by norm_num)
  have l15 := nn 13 12
  have k16 := key 14 8 (M := 703 / 5000000000) (by norm_num)
  have l16 := nn 14 8
  have k17 := key 14 10 (M := 9 / 800000000) (by norm_num)
  have l17 := nn 14 10
  have k18 := key 14 12 (M := 4501 / 5000000000000) (by norm_num)
  have l18 := nn 14 12
  have k19 := key 15 8 (M := 937 / 10000000000) (by norm_num)
  have l19 := nn 15 8
  have k20 := key 15 10 (M := 7499 / 1000000000000) (by norm_num)
  have l20 := nn 15 10
  have k21 := key 15 12 (M := 3001 / 5000000000000) (by norm_num)
  have l21 := nn 15 12
  have k22 := key 16 8 (M := 6247 / 100000000000) (by norm_num)
  have l22 := nn 16 8
  have k23 := key 16 10 (M := 4999 / 1000000000000) (by norm_num)
  have l23 := nn 16 10
  have k24 := key 16 12 (M := 4001 / 10000000000000) (by norm_num)
  have l24 := nn 16 12
  have k25 := key 16 14 (M := 1601 / 50000000000000) (by norm_num)
  have l25 := nn 16 14
  have k26 := key 17 10 (M := 3333 / 1000000000000) (by norm_num)
  have l26 := nn 17 10
  have k27 := key 17 12 (M := 667 / 2500000000000) (by norm_num)
  have l27 := nn 17 12
  have k28 := key 17 14 (M := 427 / 20000000000000) (by norm_num)
  have l28 := nn 17 14
  have k29 := key 18 10 (M := 1111 / 500000000000) (by norm_num)
  have l29 := nn 18 10
  have k30 := key 18 12 (M := 1779 / 10000000000000) (by norm_num)
  have l30 := nn 18 12
  have k31 := key 18 14 (M := 89 / 6250000000000) (by norm_num)
  have l31 := nn 18 14
  have k32 := key 19 10 (M := 741 / 500000000000) (by norm_num)
  have l32 := nn 19 10
  have k33 := key 19 12 (M := 593 / 5000000000000) (by norm_num)
  have l33 := nn 19 12
  have k34 := key 19 14 (M := 9487 / 1000000000000000) (by norm_num)
  have l34 := nn 19 14
  have k35 := key 20 10 (M := 79 / 80000000000) (by norm_num)
  have l35 := nn 20 10
  have k36 := key 20 12 (M := 7903 / 100000000000000) (by norm_num)
  have l36 := nn 20 12
  have k37 := key 20 14 (M := 253 / 40000000000000) (by norm_num)
  have l37 := nn 20 14
  have k38 := key 21 12 (M := 5269 / 100000000000000) (by norm_num)
  have l38 := nn 21 12
  have k39 := key 21 14 (M := 4217 / 1000000000000000) (by norm_num)
  have l39 := nn 21 14
  have k40 := key 22 12 (M := 3513 / 100000000000000) (by norm_num)
  have l40 := nn 22 12
  have k41 := key 22 14 (M := 2811 / 1000000000000000) (by norm_num)
  have l41 := nn 22 14
  have k42 := key 23 12 (M := 1171 / 50000000000000) (by norm_num)
  have l42 := nn 23 12
  have k43 := key 23 14 (M := 937 / 500000000000000) (by norm_num)
  have l43 := nn 23 14
  have k44 := key 24 12 (M := 781 / 50000000000000) (by norm_num)
  have l44 := nn 24 12
  have k45 := key 24 14 (M := 1 / 800000000000) (by norm_num)
  have l45 := nn 24 14
  have k46 := key 25 14 (M := 8329 / 10000000000000000) (by norm_num)
  have l46 := nn 25 14
  have k47 := key 26 14 (M := 5553 / 10000000000000000) (by norm_num)
  have l47 := nn 26 14
  have k48 := key 27 14 (M := 1851 / 5000000000000000) (by norm_num)
  have l48 := nn 27 14
  have k49 := key 28 14 (M := 617 / 2500000000000000) (by norm_num)
  have l49 := nn 28 14
  have e : d1 z x = ((3125 / 2016)) * (x ^ 5 * z ^ 6) + ((3125 / 2304)) * (x ^ 6 * z ^ 6) +
    ((3125 / 8064)) * (x ^ 8 * z ^ 8) + ((2543285 / 16128)) * (x ^ 9 * z ^ 8) + ((2319307 /
    24576)) * (x ^ 10 * z ^ 8) + (-(3125 / 2688)) * (x ^ 10 * z ^ 10) + ((9765625 / 16257024)) *
    (x ^ 10 * z ^ 12) + ((4761 / 64)) * (x ^ 11 * z ^ 8) + (-(15625 / 32256)) * (x ^ 11 * z ^ 10)
    + ((9765625 / 9289728)) * (x ^ 11 * z ^ 12) + (-(79811 / 2048)) * (x ^ 12 * z ^ 8) +
    (-(1954295 / 73728)) * (x ^ 12 * z ^ 10) + ((1364359375 / 148635648)) * (x ^ 12 * z ^ 12) +
    ((85479 / 4096)) * (x ^ 13 * z ^ 8) + ((2101433 / 196608)) * (x ^ 13 * z ^ 10) + ((296875 /
    43008)) * (x ^ 13 * z ^ 12) + (-(239589 / 32768)) * (x ^ 14 * z ^ 8) + (-(6596365 / 524288))
    * (x ^ 14 * z ^ 10) + ((6938375 / 64512)) * (x ^ 14 * z ^ 12) + ((199305 / 131072)) * (x ^ 15
    * z ^ 8) + ((158293 / 16384)) * (x ^ 15 * z ^ 10) + (-(6712565 / 589824)) * (x ^ 15 * z ^ 12)
    + (-(597915 / 4194304)) * (x ^ 16 * z ^ 8) + (-(1483437 / 262144)) * (x ^ 16 * z ^ 10) +
    ((24039671 / 393216)) * (x ^ 16 * z ^ 12) + (-(99225 / 256)) * (x ^ 16 * z ^ 14) + ((142353 /
    65536)) * (x ^ 17 * z ^ 10) + (-(39626049 / 1048576)) * (x ^ 17 * z ^ 12) + (-(2835 / 16)) *
    (x ^ 17 * z ^ 14) + (-(297981 / 524288)) * (x ^ 18 * z ^ 10) + ((417805741 / 16777216)) * (x
    ^ 18 * z ^ 12) + (-(1221669 / 4096)) * (x ^ 18 * z ^ 14) + ((765315 / 8388608)) * (x ^ 19 * z
    ^ 10) + (-(7348857 / 524288)) * (x ^ 19 * z ^ 12) + ((788265 / 8192)) * (x ^ 19 * z ^ 14) +
    (-(459189 / 67108864)) * (x ^ 20 * z ^ 10) + ((25568829 / 4194304)) * (x ^ 20 * z ^ 12) +
    (-(20843415 / 262144)) * (x ^ 20 * z ^ 14) + (-(16075755 / 8388608)) * (x ^ 21 * z ^ 12) +
    ((3810573 / 65536)) * (x ^ 21 * z ^ 14) + ((27999675 / 67108864)) * (x ^ 22 * z ^ 12) +
    (-(160467039 / 4194304)) * (x ^ 22 * z ^ 14) + (-(14987025 / 268435456)) * (x ^ 23 * z ^ 12)
    + ((79594479 / 4194304)) * (x ^ 23 * z ^ 14) + ((14987025 / 4294967296)) * (x ^ 24 * z ^ 12)
    + (-(1806762249 / 268435456)) * (x ^ 24 * z ^ 14) + ((460733481 / 268435456)) * (x ^ 25 * z ^
    14) + (-(166791069 / 536870912)) * (x ^ 26 * z ^ 14) + ((75730221 / 2147483648)) * (x ^ 27 *
    z ^ 14) + (-(32455809 / 17179869184)) * (x ^ 28 * z ^ 14) := by
    rw [d1]; ring
  rw [e, abs_le]
  clear e nn key
  generalize x ^ 5 * z ^ 6 = a0 at *
  generalize x ^ 6 * z ^ 6 = a1 at *
  generalize x ^ 8 * z ^ 8 = a2 at *
  generalize x ^ 9 * z ^ 8 = a3 at *
  generalize x ^ 10 * z ^ 8 = a4 at *
  generalize x ^ 10 * z ^ 10 = a5 at *
  generalize x ^ 10 * z ^ 12 = a6 at *
  generalize x ^ 11 * z ^ 8 = a7 at *
  generalize x ^ 11 * z ^ 10 = a8 at *
  generalize x ^ 11 * z ^ 12 = a9 at *
  generalize x ^ 12 * z ^ 8 = a10 at *
  generalize x ^ 12 * z ^ 10 = a11 at *
  generalize x ^ 12 * z ^ 12 = a12 at *
  generalize x ^ 13 * z ^ 8 = a13 at *
  generalize x ^ 13 * z ^ 10 = a14 at *
  generalize x ^ 13 * z ^ 12 = a15 at *
  generalize x ^ 14 * z ^ 8 = a16 at *
  generalize x ^ 14 * z ^ 10 = a17 at *
  generalize x ^ 14 * z ^ 12 = a18 at *
  generalize x ^ 15 * z ^ 8 = a19 at *
  generalize x ^ 15 * z ^ 10 = a20 at *
  generalize x ^ 15 * z ^ 12 = a21 at *
  generalize x ^ 16 * z ^ 8 = a22 at *
  generalize x ^ 16 * z ^ 10 = a23 at *
  generalize x ^ 16 * z ^ 12 = a24 at *
  generalize x ^ 16 * z ^ 14 = a25 at *
  generalize x ^ 17 * z ^ 10 = a26 at *
  generalize x ^ 17 * z ^ 12 = a27 at *
  generalize x ^ 17 * z ^ 14 = a28 at *
  generalize x ^ 18 * z ^ 10 = a29 at *
  generalize x ^ 18 * z ^ 12 = a30 at *
  generalize x ^ 18 * z ^ 14 = a31 at *
  generalize x ^ 19 * z ^ 10 = a32 at *
  generalize x ^ 19 * z ^ 12 = a33 at *
  generalize x ^ 19 * z ^ 14 = a34 at *
  generalize x ^ 20 * z ^ 10 = a35 at *
  generalize x ^ 20 * z ^ 12 = a36 at *
  generalize x ^ 20 * z ^ 14 = a37 at *
  generalize x ^ 21 * z ^ 12 = a38 at *
  generalize x ^ 21 * z ^ 14 = a39 at *
  generalize x ^ 22 * z ^ 12 = a40 at *
  generalize x ^ 22 * z ^ 14 = a41 at *
  generalize x ^ 23 * z ^ 12 = a42 at *
  generalize x ^ 23 * z ^ 14 = a43 at *
  generalize x ^ 24 * z ^ 12 = a44 at *
  generalize x ^ 24 * z ^ 14 = a45 at *
  generalize x ^ 25 * z ^ 14 = a46 at *
  generalize x ^ 26 * z ^ 14 = a47 at *
  generalize x ^ 27 * z ^ 14 = a48 at *
  generalize x ^ 28 * z ^ 14 = a49 at *
  constructor <;> linarith

theorem d2_bound {z x : ℝ} (z0 : 0 ≤ z) (z1 : z ≤ 2829 / 10000) (x0 : 0 ≤ x) (x1 : x ≤ 2 / 3) :
    |d2 z x| ≤ 3 / 20000 := by
  have nn (i j : ℕ) : 0 ≤ x ^ i * z ^ j := by positivity
  have key (i j : ℕ) {M : ℝ} (h : (2 / 3) ^ i * (2829 / 10000) ^ j ≤ M) : x ^ i * z ^ j ≤ M :=
    (mul_le_mul (pow_le_pow_left₀ x0 x1 i) (pow_le_pow_left₀ z0 z1 j) (by positivity)
      (by positivity)).trans h
  have k0 := key 6 7 (M := 637 / 50000000) (by norm_num)
  have l0 := nn 6 7
  have k1 := key 7 5 (M := 1061 / 10000000) (by norm_num)
  have l1 := nn 7 5
  have k2 := key 7 7 (M := 1061 / 125000000) (by norm_num)
  have l2 := nn 7 7
  have k3 := key 8 5 (M := 7071 / 100000000) (by norm_num)
  have l3 := nn 8 5
  have k4 := key 8 7 (M := 5659 / 1000000000) (by norm_num)
  have l4 := nn 8 7
  have k5 := key 9 5 (M := 2357 / 50000000) (by norm_num)
  have l5 := nn 9 5
  have k6 := key 9 9 (M := 151 / 500000000) (by norm_num)
  have l6 := nn 9 9
  have k7 := key 10 5 (M := 3143 / 100000000) (by norm_num)
  have l7 := nn 10 5
  have k8 := key 10 9 (M := 2013 / 10000000000) (by norm_num)
  have l8 := nn 10 9
  have k9 := key 11 9 (M := 671 / 5000000000) (by norm_num)
  have l9 := nn 11 9
  have k10 := key 11 11 (M := 537 / 50000000000) (by norm_num)
  have l10 := nn 11 11
  have k11 := key 12 9 (M := 4473 / 50000000000) (by norm_num)
  have l11 := nn 12 9
  have k12 := key 12 11 (M := 179 / 25000000000) (by norm_num)
  have l12 := nn 12 11
  have k13 := key 13 9 (M := 1491 / 25000000000) (by norm_num)
  have l13 := nn 13 9
  have k14 := key 13 11 (M := 4773 / 1000000000000) (by norm_num)
  have l14 := nn 13 11
  have k15 := key 13 13 (M := 191 / 500000000000) (by norm_num)
  have l15 := nn 13 13
  have k16 := key 14 9 (M := 497 / 12500000000) (by norm_num)
  have l16 := nn 14 9
  have k17 := key 14 11 (M := 1591 / 500000000000) (by norm_num)
  have l17 := nn 14 11
  have k18 := key 14 13 (M := 2547 / 10000000000000) (by norm_num)
  have l18 := nn 14 13
  have k19 := key 15 9 (M := 2651 / 100000000000) (by norm_num)
  have l19 := nn 15 9
  have k20 := key 15 11 (M := 1061 / 500000000000) (by norm_num)
  have l20 := nn 15 11
  have k21 := key 15 13 (M := 849 / 5000000000000) (by norm_num)
  have l21 := nn 15 13
  have k22 := key 16 9 (M := 1767 / 100000000000) (by norm_num)
  have l22 := nn 16 9
  have k23 := key 16 11 (M := 283 / 200000000000) (by norm_num)
  have l23 := nn 16 11
  have k24 := key 16 13 (M := 283 / 2500000000000) (by norm_num)
  have l24 := nn 16 13
  have k25 := key 17 9 (M := 589 / 50000000000) (by norm_num)
  have l25 := nn 17 9
  have k26 := key 17 11 (M := 2357 / 2500000000000) (by norm_num)
  have l26 := nn 17 11
  have k27 := key 17 13 (M := 3773 / 50000000000000) (by norm_num)
  have l27 := nn 17 13
  have k28 := key 18 9 (M := 3927 / 500000000000) (by norm_num)
  have l28 := nn 18 9
  have k29 := key 18 11 (M := 3143 / 5000000000000) (by norm_num)
  have l29 := nn 18 11
  have k30 := key 18 13 (M := 5031 / 100000000000000) (by norm_num)
  have l30 := nn 18 13
  have k31 := key 19 11 (M := 4191 / 10000000000000) (by norm_num)
  have l31 := nn 19 11
  have k32 := key 19 13 (M := 1677 / 50000000000000) (by norm_num)
  have l32 := nn 19 13
  have k33 := key 20 11 (M := 1397 / 5000000000000) (by norm_num)
  have l33 := nn 20 11
  have k34 := key 20 13 (M := 559 / 25000000000000) (by norm_num)
  have l34 := nn 20 13
  have k35 := key 21 11 (M := 1863 / 10000000000000) (by norm_num)
  have l35 := nn 21 11
  have k36 := key 21 13 (M := 1491 / 100000000000000) (by norm_num)
  have l36 := nn 21 13
  have k37 := key 22 11 (M := 621 / 5000000000000) (by norm_num)
  have l37 := nn 22 11
  have k38 := key 22 13 (M := 9937 / 1000000000000000) (by norm_num)
  have l38 := nn 22 13
  have k39 := key 23 13 (M := 53 / 8000000000000) (by norm_num)
  have l39 := nn 23 13
  have k40 := key 24 13 (M := 4417 / 1000000000000000) (by norm_num)
  have l40 := nn 24 13
  have k41 := key 25 13 (M := 589 / 200000000000000) (by norm_num)
  have l41 := nn 25 13
  have k42 := key 26 13 (M := 1963 / 1000000000000000) (by norm_num)
  have l42 := nn 26 13
  have e : d2 z x = ((15625 / 4032)) * (x ^ 6 * z ^ 7) + (-(3 / 32)) * (x ^ 7 * z ^ 5) + ((115625
    / 16128)) * (x ^ 7 * z ^ 7) + ((21 / 256)) * (x ^ 8 * z ^ 5) + ((3125 / 1536)) * (x ^ 8 * z ^
    7) + (-(15 / 512)) * (x ^ 9 * z ^ 5) + (-(3125 / 5376)) * (x ^ 9 * z ^ 9) + ((9 / 2048)) * (x
    ^ 10 * z ^ 5) + (-(3125 / 14336)) * (x ^ 10 * z ^ 9) + (-(1435895 / 86016)) * (x ^ 11 * z ^
    9) + ((15625 / 5376)) * (x ^ 11 * z ^ 11) + ((296971 / 49152)) * (x ^ 12 * z ^ 9) + ((34375 /
    21504)) * (x ^ 12 * z ^ 11) + (-(837 / 128)) * (x ^ 13 * z ^ 9) + ((405 / 8)) * (x ^ 13 * z ^
    11) + (-(15625 / 512)) * (x ^ 13 * z ^ 13) + ((46557 / 8192)) * (x ^ 14 * z ^ 9) +
    (-(41206259 / 2752512)) * (x ^ 14 * z ^ 11) + (-(965625 / 28672)) * (x ^ 14 * z ^ 13) +
    (-(175167 / 65536)) * (x ^ 15 * z ^ 9) + ((148030067 / 5505024)) * (x ^ 15 * z ^ 11) +
    (-(82070425 / 344064)) * (x ^ 15 * z ^ 13) + ((437535 / 524288)) * (x ^ 16 * z ^ 9) +
    (-(19632655 / 1048576)) * (x ^ 16 * z ^ 11) + (-(32529865 / 917504)) * (x ^ 16 * z ^ 13) +
    (-(162081 / 1048576)) * (x ^ 17 * z ^ 9) + ((769869 / 65536)) * (x ^ 17 * z ^ 11) +
    (-(1556537345 / 11010048)) * (x ^ 17 * z ^ 13) + ((54027 / 4194304)) * (x ^ 18 * z ^ 9) +
    (-(2932461 / 524288)) * (x ^ 18 * z ^ 11) + ((875189213 / 12582912)) * (x ^ 18 * z ^ 13) +
    ((495603 / 262144)) * (x ^ 19 * z ^ 11) + (-(2880382747 / 58720256)) * (x ^ 19 * z ^ 13) +
    (-(3751893 / 8388608)) * (x ^ 20 * z ^ 11) + ((1064729139 / 33554432)) * (x ^ 20 * z ^ 13) +
    ((1103949 / 16777216)) * (x ^ 21 * z ^ 11) + (-(18055923 / 1048576)) * (x ^ 21 * z ^ 13) +
    (-(301077 / 67108864)) * (x ^ 22 * z ^ 11) + ((116358255 / 16777216)) * (x ^ 22 * z ^ 13) +
    (-(132772041 / 67108864)) * (x ^ 23 * z ^ 13) + ((208949139 / 536870912)) * (x ^ 24 * z ^ 13)
    + (-(51324273 / 1073741824)) * (x ^ 25 * z ^ 13) + ((11844063 / 4294967296)) * (x ^ 26 * z ^
    13) := by
    rw [d2]; ring
  rw [e, abs_le]
  clear e nn key
  generalize x ^ 6 * z ^ 7 = a0 at *
  generalize x ^ 7 * z ^ 5 = a1 at *
  generalize x ^ 7 * z ^ 7 = a2 at *
  generalize x ^ 8 * z ^ 5 = a3 at *
  generalize x ^ 8 * z ^ 7 = a4 at *
  generalize x ^ 9 * z ^ 5 = a5 at *
  generalize x ^ 9 * z ^ 9 = a6 at *
  generalize x ^ 10 * z ^ 5 = a7 at *
  generalize x ^ 10 * z ^ 9 = a8 at *
  generalize x ^ 11 * z ^ 9 = a9 at *
  generalize x ^ 11 * z ^ 11 = a10 at *
  generalize x ^ 12 * z ^ 9 = a11 at *
  generalize x ^ 12 * z ^ 11 = a12 at *
  generalize x ^ 13 * z ^ 9 = a13 at *
  generalize x ^ 13 * z ^ 11 = a14 at *
  generalize x ^ 13 * z ^ 13 = a15 at *
  generalize x ^ 14 * z ^ 9 = a16 at *
  generalize x ^ 14 * z ^ 11 = a17 at *
  generalize x ^ 14 * z ^ 13 = a18 at *
  generalize x ^ 15 * z ^ 9 = a19 at *
  generalize x ^ 15 * z ^ 11 = a20 at *
  generalize x ^ 15 * z ^ 13 = a21 at *
  generalize x ^ 16 * z ^ 9 = a22 at *
  generalize x ^ 16 * z ^ 11 = a23 at *
  generalize x ^ 16 * z ^ 13 = a24 at *
  generalize x ^ 17 * z ^ 9 = a25 at *
  generalize x ^ 17 * z ^ 11 = a26 at *
  generalize x ^ 17 * z ^ 13 = a27 at *
  generalize x ^ 18 * z ^ 9 = a28 at *
  generalize x ^ 18 * z ^ 11 = a29 at *
  generalize x ^ 18 * z ^ 13 = a30 at *
  generalize x ^ 19 * z ^ 11 = a31 at *
  generalize x ^ 19 * z ^ 13 = a32 at *
  generalize x ^ 20 * z ^ 11 = a33 at *
  generalize x ^ 20 * z ^ 13 = a34 at *
  generalize x ^ 21 * z ^ 11 = a35 at *
  generalize x ^ 21 * z ^ 13 = a36 at *
  generalize x ^ 22 * z ^ 11 = a37 at *
  generalize x ^ 22 * z ^ 13 = a38 at *
  generalize x ^ 23 * z ^ 13 = a39 at *
  generalize x ^ 24 * z ^ 13 = a40 at *
  generalize x ^ 25 * z ^ 13 = a41 at *
  generalize x ^ 26 * z ^ 13 = a42 at *
  constructor <;> linarith

theorem corr_bound {z x : ℝ} (z0 : 0 ≤ z) (z1 : z ≤ 2829 / 10000) (x0 : 0 ≤ x) (x1 : x ≤ 2 / 3) :
    |corr z x| ≤ 2349 / 100000 := by
  have nn (i j : ℕ) : 0 ≤ x ^ i * z ^ j := by positivity
  have key (i j : ℕ) {M : ℝ} (h : (2 / 3) ^ i * (2829 / 10000) ^ j ≤ M) : x ^ i * z ^ j ≤ M :=
    (mul_le_mul (pow_le_pow_left₀ x0 x1 i) (pow_le_pow_left₀ z0 z1 j) (by positivity)
      (by positivity)).trans h
  have k0 := key 2 2 (M := 3557 / 100000) (by norm_num)
  have l0 := nn 2 2
  have k1 := key 3 2 (M := 593 / 25000) (by norm_num)
  have l1 := nn 3 2
  have k2 := key 4 2 (M := 1581 / 100000) (by norm_num)
  have l2 := nn 4 2
  have k3 := key 4 4 (M := 633 / 500000) (by norm_num)
  have l3 := nn 4 4
  have k4 := key 5 4 (M := 1687 / 2000000) (by norm_num)
  have l4 := nn 5 4
  have k5 := key 6 4 (M := 703 / 1250000) (by norm_num)
  have l5 := nn 6 4
  have k6 := key 6 6 (M := 4501 / 100000000) (by norm_num)
  have l6 := nn 6 6
  have k7 := key 7 4 (M := 3749 / 10000000) (by norm_num)
  have l7 := nn 7 4
  have k8 := key 7 6 (M := 3001 / 100000000) (by norm_num)
  have l8 := nn 7 6
  have k9 := key 8 4 (M := 1 / 4000) (by norm_num)
  have l9 := nn 8 4
  have k10 := key 8 6 (M := 2001 / 100000000) (by norm_num)
  have l10 := nn 8 6
  have k11 := key 9 6 (M := 667 / 50000000) (by norm_num)
  have l11 := nn 9 6
  have k12 := key 10 6 (M := 889 / 100000000) (by norm_num)
  have l12 := nn 10 6
  have k13 := key 11 6 (M := 5927 / 1000000000) (by norm_num)
  have l13 := nn 11 6
  have k14 := key 12 6 (M := 3951 / 1000000000) (by norm_num)
  have l14 := nn 12 6
  have e : corr z x = (-(3 / 8)) * (x ^ 2 * z ^ 2) + ((3 / 16)) * (x ^ 3 * z ^ 2) + (-(3 / 64)) *
    (x ^ 4 * z ^ 2) + ((15 / 8)) * (x ^ 4 * z ^ 4) + (-(39 / 64)) * (x ^ 5 * z ^ 4) + ((273 /
    512)) * (x ^ 6 * z ^ 4) + (-(315 / 16)) * (x ^ 6 * z ^ 6) + (-(195 / 1024)) * (x ^ 7 * z ^ 4)
    + (-(9 / 2)) * (x ^ 7 * z ^ 6) + ((117 / 4096)) * (x ^ 8 * z ^ 4) + (-(3615 / 512)) * (x ^ 8
    * z ^ 6) + ((4155 / 1024)) * (x ^ 9 * z ^ 6) + (-(27537 / 16384)) * (x ^ 10 * z ^ 6) +
    ((13293 / 32768)) * (x ^ 11 * z ^ 6) + (-(5697 / 131072)) * (x ^ 12 * z ^ 6) := by
    rw [corr]; ring
  rw [e, abs_le]
  clear e nn key
  generalize x ^ 2 * z ^ 2 = a0 at *
  generalize x ^ 3 * z ^ 2 = a1 at *
  generalize x ^ 4 * z ^ 2 = a2 at *
  generalize x ^ 4 * z ^ 4 = a3 at *
  generalize x ^ 5 * z ^ 4 = a4 at *
  generalize x ^ 6 * z ^ 4 = a5 at *
  generalize x ^ 6 * z ^ 6 = a6 at *
  generalize x ^ 7 * z ^ 4 = a7 at *
  generalize x ^ 7 * z ^ 6 = a8 at *
  generalize x ^ 8 * z ^ 4 = a9 at *
  generalize x ^ 8 * z ^ 6 = a10 at *
  generalize x ^ 9 * z ^ 6 = a11 at *
  generalize x ^ 10 * z ^ 6 = a12 at *
  generalize x ^ 11 * z ^ 6 = a13 at *
  generalize x ^ 12 * z ^ 6 = a14 at *
  constructor <;> linarith

theorem B_bound {z x : ℝ} (z0 : 0 ≤ z) (z1 : z ≤ 2829 / 10000) (x0 : 0 ≤ x) (x1 : x ≤ 2 / 3) :
    |B z x| ≤ 1751 / 50000 := by
  have nn (i j : ℕ) : 0 ≤ x ^ i * z ^ j := by positivity
  have key (i j : ℕ) {M : ℝ} (h : (2 / 3) ^ i * (2829 / 10000) ^ j ≤ M) : x ^ i * z ^ j ≤ M :=
    (mul_le_mul (pow_le_pow_left₀ x0 x1 i) (pow_le_pow_left₀ z0 z1 j) (by positivity)
      (by positivity)).trans h
  have k0 := key 2 1 (M := 629 / 5000) (by norm_num)
  have l0 := nn 2 1
  have k1 := key 4 3 (M := 4473 / 1000000) (by norm_num)
  have l1 := nn 4 3
  have k2 := key 5 3 (M := 1491 / 500000) (by norm_num)
  have l2 := nn 5 3
  have k3 := key 6 3 (M := 497 / 250000) (by norm_num)
  have l3 := nn 6 3
  have k4 := key 6 5 (M := 1591 / 10000000) (by norm_num)
  have l4 := nn 6 5
  have k5 := key 7 5 (M := 1061 / 10000000) (by norm_num)
  have l5 := nn 7 5
  have k6 := key 8 5 (M := 7071 / 100000000) (by norm_num)
  have l6 := nn 8 5
  have k7 := key 8 7 (M := 5659 / 1000000000) (by norm_num)
  have l7 := nn 8 7
  have k8 := key 9 5 (M := 2357 / 50000000) (by norm_num)
  have l8 := nn 9 5
  have k9 := key 9 7 (M := 3773 / 1000000000) (by norm_num)
  have l9 := nn 9 7
  have k10 := key 10 5 (M := 3143 / 100000000) (by norm_num)
  have l10 := nn 10 5
  have k11 := key 10 7 (M := 503 / 200000000) (by norm_num)
  have l11 := nn 10 7
  have k12 := key 11 7 (M := 1677 / 1000000000) (by norm_num)
  have l12 := nn 11 7
  have k13 := key 12 7 (M := 559 / 500000000) (by norm_num)
  have l13 := nn 12 7
  have k14 := key 13 7 (M := 1863 / 2500000000) (by norm_num)
  have l14 := nn 13 7
  have k15 := key 14 7 (M := 621 / 1250000000) (by norm_num)
  have l15 := nn 14 7
  have e : B z x = ((1 / 4)) * (x ^ 2 * z ^ 1) + (-(3 / 8)) * (x ^ 4 * z ^ 3) + ((3 / 16)) * (x ^
    5 * z ^ 3) + (-(3 / 64)) * (x ^ 6 * z ^ 3) + ((15 / 8)) * (x ^ 6 * z ^ 5) + (-(39 / 64)) * (x
    ^ 7 * z ^ 5) + ((273 / 512)) * (x ^ 8 * z ^ 5) + (-(315 / 16)) * (x ^ 8 * z ^ 7) + (-(195 /
    1024)) * (x ^ 9 * z ^ 5) + (-(9 / 2)) * (x ^ 9 * z ^ 7) + ((117 / 4096)) * (x ^ 10 * z ^ 5) +
    (-(3615 / 512)) * (x ^ 10 * z ^ 7) + ((4155 / 1024)) * (x ^ 11 * z ^ 7) + (-(27537 / 16384))
    * (x ^ 12 * z ^ 7) + ((13293 / 32768)) * (x ^ 13 * z ^ 7) + (-(5697 / 131072)) * (x ^ 14 * z
    ^ 7) := by
    rw [B]; ring
  rw [e, abs_le]
  clear e nn key
  generalize x ^ 2 * z ^ 1 = a0 at *
  generalize x ^ 4 * z ^ 3 = a1 at *
  generalize x ^ 5 * z ^ 3 = a2 at *
  generalize x ^ 6 * z ^ 3 = a3 at *
  generalize x ^ 6 * z ^ 5 = a4 at *
  generalize x ^ 7 * z ^ 5 = a5 at *
  generalize x ^ 8 * z ^ 5 = a6 at *
  generalize x ^ 8 * z ^ 7 = a7 at *
  generalize x ^ 9 * z ^ 5 = a8 at *
  generalize x ^ 9 * z ^ 7 = a9 at *
  generalize x ^ 10 * z ^ 5 = a10 at *
  generalize x ^ 10 * z ^ 7 = a11 at *
  generalize x ^ 11 * z ^ 7 = a12 at *
  generalize x ^ 12 * z ^ 7 = a13 at *
  generalize x ^ 13 * z ^ 7 = a14 at *
  generalize x ^ 14 * z ^ 7 = a15 at *
  constructor <;> linarith

theorem P_bound {z x : ℝ} (z0 : 0 ≤ z) (z1 : z ≤ 2829 / 10000) (x0 : 0 ≤ x) (x1 : x ≤ 2 / 3) :
    |P z x - 1| ≤ 9 / 1000 := by
  have nn (i j : ℕ) : 0 ≤ x ^ i * z ^ j := by positivity
  have key (i j : ℕ) {M : ℝ} (h : (2 / 3) ^ i * (2829 / 10000) ^ j ≤ M) : x ^ i * z ^ j ≤ M :=
    (mul_le_mul (pow_le_pow_left₀ x0 x1 i) (pow_le_pow_left₀ z0 z1 j) (by positivity)
      (by positivity)).trans h
  have k0 := key 3 2 (M := 593 / 25000) (by norm_num)
  have l0 := nn 3 2
  have k1 := key 4 2 (M := 1581 / 100000) (by norm_num)
  have l1 := nn 4 2
  have k2 := key 5 4 (M := 1687 / 2000000) (by norm_num)
  have l2 := nn 5 4
  have k3 := key 5 6 (M := 6751 / 100000000) (by norm_num)
  have l3 := nn 5 6
  have k4 := key 6 4 (M := 703 / 1250000) (by norm_num)
  have l4 := nn 6 4
  have k5 := key 6 6 (M := 4501 / 100000000) (by norm_num)
  have l5 := nn 6 6
  have k6 := key 7 4 (M := 3749 / 10000000) (by norm_num)
  have l6 := nn 7 4
  have k7 := key 7 6 (M := 3001 / 100000000) (by norm_num)
  have l7 := nn 7 6
  have k8 := key 8 4 (M := 1 / 4000) (by norm_num)
  have l8 := nn 8 4
  have k9 := key 8 6 (M := 2001 / 100000000) (by norm_num)
  have l9 := nn 8 6
  have k10 := key 9 6 (M := 667 / 50000000) (by norm_num)
  have l10 := nn 9 6
  have k11 := key 10 6 (M := 889 / 100000000) (by norm_num)
  have l11 := nn 10 6
  have k12 := key 11 6 (M := 5927 / 1000000000) (by norm_num)
  have l12 := nn 11 6
  have k13 := key 12 6 (M := 3951 / 1000000000) (by norm_num)
  have l13 := nn 12 6
  have e : P z x - 1 = ((1 / 4)) * (x ^ 3 * z ^ 2) + (-(3 / 32)) * (x ^ 4 * z ^ 2) + (-(3 / 4)) * (x
    ^ 5 * z ^ 4) + ((3125 / 4032)) * (x ^ 5 * z ^ 6) + ((11 / 32)) * (x ^ 6 * z ^ 4) + ((3125 /
    4608)) * (x ^ 6 * z ^ 6) + (-(21 / 128)) * (x ^ 7 * z ^ 4) + ((45 / 8)) * (x ^ 7 * z ^ 6) +
    ((63 / 2048)) * (x ^ 8 * z ^ 4) + (-(15 / 32)) * (x ^ 8 * z ^ 6) + ((449 / 256)) * (x ^ 9 * z
    ^ 6) + (-(903 / 1024)) * (x ^ 10 * z ^ 6) + ((2079 / 8192)) * (x ^ 11 * z ^ 6) + (-(2079 /
    65536)) * (x ^ 12 * z ^ 6) := by
    rw [P]; ring
  rw [e, abs_le]
  clear e nn key
  generalize x ^ 3 * z ^ 2 = a0 at *
  generalize x ^ 4 * z ^ 2 = a1 at *
  generalize x ^ 5 * z ^ 4 = a2 at *
  generalize x ^ 5 * z ^ 6 = a3 at *
  generalize x ^ 6 * z ^ 4 = a4 at *
  generalize x ^ 6 * z ^ 6 = a5 at *
  generalize x ^ 7 * z ^ 4 = a6 at *
  generalize x ^ 7 * z ^ 6 = a7 at *
  generalize x ^ 8 * z ^ 4 = a8 at *
  generalize x ^ 8 * z ^ 6 = a9 at *
  generalize x ^ 9 * z ^ 6 = a10 at *
  generalize x ^ 10 * z ^ 6 = a11 at *
  generalize x ^ 11 * z ^ 6 = a12 at *
  generalize x ^ 12 * z ^ 6 = a13 at *
  constructor <;> linarith

theorem codeP_near {z x : ℝ} (z0 : 0 ≤ z) (z1 : z ≤ 2829 / 10000) (x0 : 0 ≤ x) (x1 : x ≤ 2 / 3) :
    |codeP z x - P z x| ≤ 1 / 10000 := by
  have e : codeP z x - P z x = -(3125 / 4608 * (x ^ 6 * z ^ 6) + 3125 / 4032 * (x ^ 5 * z ^ 6)) := by
    rw [codeP, P]; ring
  have h1 : x ^ 6 * z ^ 6 ≤ (2 / 3) ^ 6 * (2829 / 10000) ^ 6 :=
    mul_le_mul (pow_le_pow_left₀ x0 x1 6) (pow_le_pow_left₀ z0 z1 6) (by positivity) (by positivity)
  have h2 : x ^ 5 * z ^ 6 ≤ (2 / 3) ^ 5 * (2829 / 10000) ^ 6 :=
    mul_le_mul (pow_le_pow_left₀ x0 x1 5) (pow_le_pow_left₀ z0 z1 6) (by positivity) (by positivity)
  have h3 : 0 ≤ x ^ 6 * z ^ 6 := by positivity
  have h4 : 0 ≤ x ^ 5 * z ^ 6 := by positivity
  norm_num at h1 h2
  rw [e, abs_neg, abs_of_nonneg (by positivity)]
  linarith

/-- `(1-x) ∂P/∂x + 3 z/2 ∂P/∂z` -/
noncomputable def PD (z x : ℝ) : ℝ :=
  z ^ 2 * (3 / 32 * x ^ 4 - 3 / 8 * x ^ 3 + 3 / 4 * x ^ 2) + z ^ 4 * (-63 / 1024 * x ^ 8 + 105 /
    256 * x ^ 7 - 147 / 128 * x ^ 6 + 21 / 16 * x ^ 5 - 15 / 4 * x ^ 4) + z ^ 6 * (6237 / 65536 *
    x ^ 12 - 14553 / 16384 * x ^ 11 + 30093 / 8192 * x ^ 10 - 4515 / 512 * x ^ 9 + 3921 / 256 * x
    ^ 8 + 15 / 2 * x ^ 7 + 63605 / 1536 * x ^ 6 + 115625 / 16128 * x ^ 5 + 15625 / 4032 * x ^ 4)

/-- `(1-x) ∂B/∂x + 3 z/2 ∂B/∂z` -/
noncomputable def BD (z x : ℝ) : ℝ :=
  z * (-1 / 8 * x ^ 2 + 1 / 2 * x) + z ^ 3 * (9 / 128 * x ^ 6 - 3 / 8 * x ^ 5 + 3 / 4 * x ^ 4 - 3
    / 2 * x ^ 3) + z ^ 5 * (-585 / 8192 * x ^ 10 + 585 / 1024 * x ^ 9 - 507 / 256 * x ^ 8 + 507 /
    128 * x ^ 7 - 93 / 64 * x ^ 6 + 45 / 4 * x ^ 5) + z ^ 7 * (39879 / 262144 * x ^ 14 - 13293 /
    8192 * x ^ 13 + 63855 / 8192 * x ^ 12 - 90921 / 4096 * x ^ 11 + 21045 / 512 * x ^ 10 - 19803
    / 256 * x ^ 9 - 2871 / 32 * x ^ 8 - 315 / 2 * x ^ 7)

theorem defect_in (z x : ℝ) :
    B z x ^ 2 - P z x ^ 2 - x ^ 2 * z / 2 * B z x + x ^ 2 * z * BD z x = -(1 + d1 z x) := by
  simp only [B, P, BD, d1]; ring

theorem defect_out (z x : ℝ) :
    2 * B z x * P z x - x ^ 2 * z / 2 * P z x + x ^ 2 * z * PD z x = d2 z x := by
  simp only [B, P, PD, d2]; ring

/-! ## As functions of the channel ratio -/

/-- `x` as a function of the channel ratio. -/
noncomputable def X (η ρ : ℝ) : ℝ := 2 * η / ρ

/-- `√(1-x)` -/
noncomputable def S (η ρ : ℝ) : ℝ := Real.sqrt (1 - X η ρ)

/-- The expansion parameter. -/
noncomputable def Z (η ρ : ℝ) : ℝ := 1 / (2 * η) / S η ρ ^ 3

section
variable {η ρ : ℝ} (hη : 0 < η) (hρ : 2 * η < ρ)
include hη hρ

theorem X_pos : 0 < X η ρ := div_pos (by linarith) (by linarith)

theorem X_lt : X η ρ < 1 := by
  rw [X, div_lt_one (by linarith)]; exact hρ

theorem S_pos : 0 < S η ρ := Real.sqrt_pos.mpr (by linarith [X_lt hη hρ])

theorem S_sq : S η ρ ^ 2 = 1 - X η ρ := Real.sq_sqrt (by linarith [X_lt hη hρ])

theorem S_lt : S η ρ < 1 := by
  have := S_sq hη hρ
  have := X_pos hη hρ
  have := S_pos hη hρ
  nlinarith

theorem Z_pos : 0 < Z η ρ := by
  have := S_pos hη hρ
  rw [Z]; positivity

theorem Z_eq : 2 * η * Z η ρ * S η ρ ^ 3 = 1 := by
  have := S_pos hη hρ
  rw [Z]; field_simp

theorem X_deriv : HasDerivAt (X η) (-(X η ρ ^ 2 * Z η ρ * S η ρ * (1 - X η ρ))) ρ := by
  have h0 : ρ ≠ 0 := by intro h; rw [h] at hρ; linarith
  have hz := Z_eq hη hρ
  have hs := S_sq hη hρ
  have : HasDerivAt (X η) _ ρ := (hasDerivAt_inv h0).const_mul (2 * η)
  refine this.congr_deriv ?_
  rw [← hs]
  have e : X η ρ ^ 2 * Z η ρ * S η ρ * S η ρ ^ 2 = X η ρ ^ 2 * (2 * η * Z η ρ * S η ρ ^ 3) / (2 * η) := by
    field_simp
  rw [e, hz, X]
  field_simp

theorem S_deriv : HasDerivAt (S η) (X η ρ ^ 2 * Z η ρ * (1 - X η ρ) / 2) ρ := by
  have hs := S_pos hη hρ
  have hd := ((X_deriv hη hρ).const_sub 1).sqrt (by linarith [X_lt hη hρ])
  refine HasDerivAt.congr_deriv hd ?_
  change _ / (2 * S η ρ) = _
  field_simp

theorem Z_deriv : HasDerivAt (Z η) (-(3 / 2 * X η ρ ^ 2 * Z η ρ ^ 2 * S η ρ)) ρ := by
  have hs := S_pos hη hρ
  have h2 := S_sq hη hρ
  have hd : HasDerivAt (Z η) _ ρ :=
    (((S_deriv hη hρ).fun_pow 3).fun_inv (pow_pos hs 3).ne').const_mul (1 / (2 * η))
  refine HasDerivAt.congr_deriv hd ?_
  rw [← h2]
  have : Z η ρ = 1 / (2 * η) / S η ρ ^ 3 := rfl
  generalize X η ρ = x at *
  generalize Z η ρ = z at *
  generalize S η ρ = s at *
  subst this
  push_cast
  field_simp

theorem phase_eq : riccati2Phase η (X η ρ)
    = 2 * η * (S η ρ / X η ρ + 0.5 * Real.log ((1 - S η ρ) / (1 + S η ρ))) + PI_4
      + phi (Z η ρ) (X η ρ) := by
  have hs := S_pos hη hρ
  have h2 := S_sq hη hρ
  have hz := Z_pos hη hρ
  have hx := X_lt hη hρ
  have e : 1 / (2 * η) * (1 / (2 * η)) * (1 / (1 - X η ρ)) * (1 / (1 - X η ρ)) * (1 / (1 - X η ρ))
      = Z η ρ ^ 2 := by
    rw [Z, ← h2]; field_simp
  simp only [riccati2Phase]
  rw [e, Real.sqrt_sq hz.le, phi]
  change 2 * η * (S η ρ / X η ρ + _) + _ + _ = _
  ring_nf
  rfl

theorem phase_deriv : HasDerivAt (fun ρ => riccati2Phase η (X η ρ)) (S η ρ * P (Z η ρ) (X η ρ)) ρ := by
  have hs := S_pos hη hρ
  have h2 := S_sq hη hρ
  have hz := Z_eq hη hρ
  have hx := X_pos hη hρ
  have hs1 := S_lt hη hρ
  have dS := S_deriv hη hρ
  have dX := X_deriv hη hρ
  have dlog := ((dS.const_sub 1).fun_div (dS.const_add 1) (by linarith)).log
    (div_pos (by linarith) (by linarith)).ne'
  have hd := ((((dS.fun_div dX hx.ne').fun_add (dlog.const_mul 0.5)).const_mul (2 * η)).add_const
    PI_4).fun_add (phi_deriv dX (Z_deriv hη hρ))
  have he : (fun ρ => riccati2Phase η (X η ρ)) =ᶠ[nhds ρ] _ :=
    Filter.mem_of_superset (Ioi_mem_nhds hρ) fun r hr => phase_eq hη hr
  refine (hd.congr_of_eventuallyEq he).congr_deriv ?_
  have lead : 2 * η * ((X η ρ ^ 2 * Z η ρ * (1 - X η ρ) / 2 * X η ρ
        - S η ρ * -(X η ρ ^ 2 * Z η ρ * S η ρ * (1 - X η ρ))) / X η ρ ^ 2
      + 0.5 * ((-(X η ρ ^ 2 * Z η ρ * (1 - X η ρ) / 2) * (1 + S η ρ)
        - (1 - S η ρ) * (X η ρ ^ 2 * Z η ρ * (1 - X η ρ) / 2)) / (1 + S η ρ) ^ 2
          / ((1 - S η ρ) / (1 + S η ρ)))) = S η ρ := by
    have h1 : 1 - S η ρ ≠ 0 := by linarith
    have h3 : 1 + S η ρ ≠ 0 := by linarith
    have hX : X η ρ = (1 - S η ρ) * (1 + S η ρ) := by linear_combination h2
    rw [← h2]
    generalize S η ρ = s at *
    generalize Z η ρ = z at *
    rw [hX]
    have : 2 * η * z = 1 / s ^ 3 := by
      rw [eq_div_iff (by positivity)]; exact hz
    have hη' : z = 1 / s ^ 3 / (2 * η) := by rw [← this]; field_simp
    rw [hη']
    field_simp
    ring
  rw [lead, P]
  generalize S η ρ = s at *
  ring

/-- The amplitude. -/
noncomputable def _root_.Verif.Riccati2.amp (η ρ : ℝ) : ℝ :=
  1 / Real.sqrt (S η ρ) * Real.exp (riccati2Exponent η (X η ρ))

omit hη hρ in
theorem exponent_eq' (h : 0 < η) (h' : 2 * η < ρ) :
    riccati2Exponent η (X η ρ) = psi (Z η ρ) (X η ρ) := by
  have hs := S_pos h h'
  have h2 := S_sq h h'
  have e : 1 / (2 * η) * (1 / (2 * η)) * (1 / (1 - X η ρ)) * (1 / (1 - X η ρ)) * (1 / (1 - X η ρ))
      = Z η ρ ^ 2 := by
    rw [Z, ← h2]; field_simp
  simp only [riccati2Exponent]
  rw [e, psi]
  ring

theorem amp_pos : 0 < amp η ρ := by
  have := Real.sqrt_pos.mpr (S_pos hη hρ)
  rw [amp]; positivity

theorem amp_deriv : HasDerivAt (amp η) (amp η ρ * (-(S η ρ * B (Z η ρ) (X η ρ)))) ρ := by
  have hs := S_pos hη hρ
  have hr := Real.sqrt_pos.mpr hs
  have hq := Real.sq_sqrt hs.le
  have h2 := S_sq hη hρ
  have d1 := ((S_deriv hη hρ).sqrt hs.ne').fun_inv hr.ne'
  have d2 := (psi_deriv (X_deriv hη hρ) (Z_deriv hη hρ)).exp
  have he : amp η =ᶠ[nhds ρ] fun ρ => (Real.sqrt (S η ρ))⁻¹ * Real.exp (psi (Z η ρ) (X η ρ)) :=
    Filter.mem_of_superset (Ioi_mem_nhds hρ) fun r hr => by
      change amp η r = _
      rw [amp, exponent_eq' hη hr, one_div]
  refine ((d1.fun_mul d2).congr_of_eventuallyEq he).congr_deriv ?_
  rw [amp, exponent_eq' hη hρ, one_div]
  have e1 : -(X η ρ ^ 2 * Z η ρ * (1 - X η ρ) / 2 / (2 * Real.sqrt (S η ρ))) / Real.sqrt (S η ρ) ^ 2
      = (Real.sqrt (S η ρ))⁻¹ * (-(X η ρ ^ 2 * Z η ρ * S η ρ / 4)) := by
    rw [hq, ← h2]
    field_simp
    ring
  rw [e1, B]
  generalize Real.exp _ = E
  ring

/-- The derivative of the approximate solution. -/
noncomputable def _root_.Verif.Riccati2.g (η ρ : ℝ) : ℝ :=
  amp η ρ * (-(S η ρ * B (Z η ρ) (X η ρ)) * Real.cos (riccati2Phase η (X η ρ))
    - S η ρ * P (Z η ρ) (X η ρ) * Real.sin (riccati2Phase η (X η ρ)))

theorem G_deriv : HasDerivAt (fun ρ => amp η ρ * Real.cos (riccati2Phase η (X η ρ))) (g η ρ) ρ := by
  refine ((amp_deriv hη hρ).fun_mul (phase_deriv hη hρ).cos).congr_deriv ?_
  rw [g]; ring

theorem P_curve : HasDerivAt (fun ρ => P (Z η ρ) (X η ρ))
    (-(X η ρ ^ 2 * Z η ρ * S η ρ) * PD (Z η ρ) (X η ρ)) ρ := by
  refine (P_deriv (X_deriv hη hρ) (Z_deriv hη hρ)).congr_deriv ?_
  rw [PD]; ring

theorem B_curve : HasDerivAt (fun ρ => B (Z η ρ) (X η ρ))
    (-(X η ρ ^ 2 * Z η ρ * S η ρ) * BD (Z η ρ) (X η ρ)) ρ := by
  refine (B_deriv (X_deriv hη hρ) (Z_deriv hη hρ)).congr_deriv ?_
  rw [BD]; ring

theorem g_deriv : HasDerivAt (g η)
    (-(1 - X η ρ) * ((1 + d1 (Z η ρ) (X η ρ)) * (amp η ρ * Real.cos (riccati2Phase η (X η ρ)))
      - d2 (Z η ρ) (X η ρ) * (amp η ρ * Real.sin (riccati2Phase η (X η ρ))))) ρ := by
  have dB := ((S_deriv hη hρ).fun_mul (B_curve hη hρ)).fun_neg
  have dP := (S_deriv hη hρ).fun_mul (P_curve hη hρ)
  have dφ := phase_deriv hη hρ
  refine HasDerivAt.congr_deriv (f := g η)
    ((amp_deriv hη hρ).fun_mul ((dB.fun_mul dφ.cos).fun_sub (dP.fun_mul dφ.sin))) ?_
  have h2 := S_sq hη hρ
  have e1 := defect_in (Z η ρ) (X η ρ)
  have e2 := defect_out (Z η ρ) (X η ρ)
  generalize Real.cos (riccati2Phase η (X η ρ)) = C
  generalize Real.sin (riccati2Phase η (X η ρ)) = D
  generalize amp η ρ = m
  generalize B (Z η ρ) (X η ρ) = b at *
  generalize P (Z η ρ) (X η ρ) = p at *
  generalize BD (Z η ρ) (X η ρ) = b' at *
  generalize PD (Z η ρ) (X η ρ) = p' at *
  generalize d1 (Z η ρ) (X η ρ) = δ1 at *
  generalize d2 (Z η ρ) (X η ρ) = δ2 at *
  generalize S η ρ = s at *
  generalize Z η ρ = z at *
  generalize X η ρ = x at *
  linear_combination (1 - x) * (m * C) * e1 + (1 - x) * (m * D) * e2
    + ((b ^ 2 - p ^ 2) + x ^ 2 * z * b') * (m * C) * h2
    + (2 * b * p + x ^ 2 * z * p') * (m * D) * h2

/-- What `omGcase4` returns. -/
theorem case4_eq : omGcase4 ρ η = .ok
    (amp η ρ * Real.cos (riccati2Phase η (X η ρ)),
     -(S η ρ * codeP (Z η ρ) (X η ρ) * (amp η ρ * Real.sin (riccati2Phase η (X η ρ)))
       + X η ρ ^ 2 * (Z η ρ * S η ρ / 4 + corr (Z η ρ) (X η ρ))
         * (amp η ρ * Real.cos (riccati2Phase η (X η ρ))))) := by
  have hx := X_pos hη hρ
  have hx' := X_lt hη hρ
  have hs := S_pos hη hρ
  have h2 := S_sq hη hρ
  have e : 1 / (2 * η) * (1 / (2 * η)) * (1 / (1 - X η ρ)) * (1 / (1 - X η ρ)) * (1 / (1 - X η ρ))
      = Z η ρ ^ 2 := by
    rw [Z, ← h2]; field_simp
  have eA : X η ρ ^ 2 * riccati2A η (X η ρ) = S η ρ * codeP (Z η ρ) (X η ρ) := by
    simp only [riccati2A]
    rw [e, codeP]
    change X η ρ ^ 2 * (S η ρ / X η ρ * _) = _
    generalize S η ρ = s at *
    generalize Z η ρ = z at *
    field_simp
    ring
  have eB : X η ρ ^ 2 * riccati2B η (X η ρ)
      = X η ρ ^ 2 * (Z η ρ * S η ρ / 4 + corr (Z η ρ) (X η ρ)) := by
    simp only [riccati2B]
    rw [e, corr]
    have : 1 / (1 - X η ρ) * (1 / (2 * η)) / 4 = Z η ρ * S η ρ / 4 := by
      rw [Z, ← h2]; field_simp
    rw [this]
    ring
  simp only [omGcase4]
  change (if 0 < X η ρ ∧ X η ρ < 1 then _ else _) = _
  rw [if_pos ⟨hx, hx'⟩]
  change Except.ok (amp η ρ * Real.cos (riccati2Phase η (X η ρ)),
    -X η ρ * X η ρ * (riccati2A η (X η ρ) * amp η ρ * Real.sin (riccati2Phase η (X η ρ))
      + riccati2B η (X η ρ) * (amp η ρ * Real.cos (riccati2Phase η (X η ρ))))) = _
  congr 2
  rw [← eA, ← eB]
  ring

theorem B_eq : B (Z η ρ) (X η ρ) = X η ρ ^ 2 * Z η ρ * (1 / 4 + corr (Z η ρ) (X η ρ)) := by
  rw [B, corr]; ring

/-- The expansion parameters in the region where the expansion is used directly. -/
theorem region (h5 : 5 ≤ η) (h15 : η ≤ 15) (hr : 2.5 * η + 7.5 ≤ ρ) :
    X η ρ ≤ 2 / 3 ∧ Z η ρ ≤ 2829 / 10000 := by
  have hρ0 : 0 < ρ := by linarith
  have hx : X η ρ ≤ 2 * η / (2.5 * η + 7.5) := by
    rw [X]; exact div_le_div_of_nonneg_left (by linarith) (by linarith) hr
  constructor
  · refine hx.trans ?_
    rw [div_le_div_iff₀ (by linarith) (by norm_num)]
    linarith
  · have hs := S_pos hη hρ
    have h2 := S_sq hη hρ
    have low : (η + 15) / (5 * η + 15) ≤ S η ρ ^ 2 := by
      rw [h2]
      have : 2 * η / (2.5 * η + 7.5) = 1 - (η + 15) / (5 * η + 15) := by
        field_simp; ring
      linarith
    have cube : ((η + 15) / (5 * η + 15)) ^ 3 ≤ (S η ρ ^ 2) ^ 3 :=
      pow_le_pow_left₀ (by positivity) low 3
    rw [Z, div_le_iff₀ (by positivity)]
    refine le_of_sq_le_sq ?_ (by positivity)
    have key : 25 / 2 ≤ 4 * η ^ 2 * ((η + 15) / (5 * η + 15)) ^ 3 := by
      rw [div_pow, ← mul_div_assoc, le_div_iff₀ (by positivity)]
      obtain ⟨a, rfl⟩ : ∃ a, η = 5 + a := ⟨η - 5, by ring⟩
      have ha : 0 ≤ a := by linarith
      have e : 4 * (5 + a) ^ 2 * (5 + a + 15) ^ 3 - 25 / 2 * (5 * (5 + a) + 15) ^ 3
          = 140000 * a + 48500 * a ^ 2 + 11475 / 2 * a ^ 3 + 280 * a ^ 4 + 4 * a ^ 5 := by ring
      have : 0 ≤ 140000 * a + 48500 * a ^ 2 + 11475 / 2 * a ^ 3 + 280 * a ^ 4 + 4 * a ^ 5 := by
        positivity
      linarith
    have k2 : 25 / 2 ≤ 4 * η ^ 2 * (S η ρ ^ 2) ^ 3 :=
      key.trans (mul_le_mul_of_nonneg_left cube (by positivity))
    rw [mul_pow, show (S η ρ ^ 3) ^ 2 = (S η ρ ^ 2) ^ 3 by ring, div_pow, div_le_iff₀ (by positivity)]
    nlinarith

end

end Verif.Riccati2
