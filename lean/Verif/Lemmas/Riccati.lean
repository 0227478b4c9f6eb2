import Verif.Model.Coulomb
import Mathlib.Analysis.SpecialFunctions.Sqrt
import Mathlib.Analysis.SpecialFunctions.ExpDeriv
import Mathlib.Analysis.SpecialFunctions.Log.Deriv
import Mathlib.Analysis.SpecialFunctions.Trigonometric.InverseDeriv
import Mathlib.Analysis.Calculus.Deriv.Inv
import Mathlib.Analysis.Calculus.Deriv.Pow

/-!
# The expansion of the irregular Coulomb function below the turning point

The exponent and the slope of `omGcase1` as polynomials in `t` and the expansion parameter
`1 / (2 y √(t (1-t)³))`.
-/

namespace Verif.Riccati

/-- `√(t (1-t)³)` -/
noncomputable def v (t : ℝ) : ℝ := Real.sqrt (t * (1 - t) * (1 - t) * (1 - t))

/-- The expansion parameter. -/
noncomputable def u (y t : ℝ) : ℝ := 1 / (2 * y) / v t

section
variable {t : ℝ} (h0 : 0 < t) (h1 : t < 1)
include h0 h1

theorem v_arg_pos : 0 < t * (1 - t) * (1 - t) * (1 - t) := by
  have : 0 < 1 - t := by linarith
  positivity

theorem v_pos : 0 < v t := Real.sqrt_pos.mpr (v_arg_pos h0 h1)

theorem v_sq : v t ^ 2 = t * (1 - t) ^ 3 := by
  rw [v, Real.sq_sqrt (v_arg_pos h0 h1).le]; ring

theorem v_eq : v t = Real.sqrt t * Real.sqrt (1 - t) ^ 3 := by
  have h2 : 0 < 1 - t := by linarith
  have e : t * (1 - t) * (1 - t) * (1 - t) = t * ((1 - t) ^ 2 * (1 - t)) := by ring
  rw [v, e, Real.sqrt_mul h0.le, Real.sqrt_mul (by positivity), Real.sqrt_sq h2.le]
  have := Real.sq_sqrt h2.le
  calc Real.sqrt t * ((1 - t) * Real.sqrt (1 - t))
      = Real.sqrt t * (Real.sqrt (1 - t) ^ 2 * Real.sqrt (1 - t)) := by rw [this]
    _ = _ := by ring

theorem v_deriv : HasDerivAt v (v t * (1 - 4 * t) / (2 * t * (1 - t))) t := by
  have hv := v_pos h0 h1
  have h2 : 0 < 1 - t := by linarith
  have hl : HasDerivAt (fun t : ℝ => 1 - t) (-1) t := by
    simpa using (hasDerivAt_id t).const_sub 1
  have := (((((hasDerivAt_id t).mul hl).mul hl).mul hl)).sqrt (v_arg_pos h0 h1).ne'
  refine this.congr_deriv ?_
  simp only [id_eq, Pi.mul_apply]
  change _ / (2 * v t) = _
  rw [div_eq_div_iff (by positivity) (by positivity)]
  have := v_sq h0 h1
  linear_combination (-2 * (1 - 4 * t)) * this

theorem u_deriv (y : ℝ) : HasDerivAt (u y) (u y t * (4 * t - 1) / (2 * t * (1 - t))) t := by
  have hv := v_pos h0 h1
  have h2 : 0 < 1 - t := by linarith
  refine ((v_deriv h0 h1).fun_inv hv.ne' |>.const_mul (1 / (2 * y))).congr_deriv ?_
  rw [u]
  by_cases hy : y = 0
  · simp [hy]
  · field_simp
    ring

/-- The derivative of the leading exponent. -/
theorem leading_deriv :
    HasDerivAt (fun t => Real.sqrt (t * (1 - t)) + Real.arcsin (Real.sqrt t) - PI_2)
      (v t / (t * (1 - t))) t := by
  have h2 : 0 < 1 - t := by linarith
  have hl : HasDerivAt (fun t : ℝ => 1 - t) (-1) t := by
    simpa using (hasDerivAt_id t).const_sub 1
  have ha : 0 < Real.sqrt t := Real.sqrt_pos.mpr h0
  have hb : 0 < Real.sqrt (1 - t) := Real.sqrt_pos.mpr h2
  have hlt : Real.sqrt t < 1 := by
    rw [Real.sqrt_lt' one_pos]; linarith
  have hs := ((hasDerivAt_id t).mul hl).sqrt (by simp only [Pi.mul_apply, id_eq]; positivity)
  have harc := (Real.hasDerivAt_arcsin (x := Real.sqrt t) (by linarith) hlt.ne).comp t
    (Real.hasDerivAt_sqrt h0.ne')
  refine ((hs.add harc).sub_const PI_2).congr_deriv ?_
  simp only [Pi.mul_apply, id_eq]
  rw [Real.sqrt_mul h0.le, Real.sq_sqrt h0.le, v_eq h0 h1]
  have e0 := Real.sq_sqrt h0.le
  have e1 := Real.sq_sqrt h2.le
  generalize Real.sqrt t = a at *
  generalize Real.sqrt (1 - t) = b at *
  rw [← e1, ← e0]
  field_simp
  rw [← e0] at e1
  linear_combination -e1

theorem log_deriv' : HasDerivAt (fun t => Real.log (t / (1 - t)) / 4) (1 / (4 * t * (1 - t))) t := by
  have h2 : 0 < 1 - t := by linarith
  have hl : HasDerivAt (fun t : ℝ => 1 - t) (-1) t := by
    simpa using (hasDerivAt_id t).const_sub 1
  refine ((((hasDerivAt_id t).div hl h2.ne').log (by simp only [Pi.div_apply, id_eq]; positivity)).div_const
    4).congr_deriv ?_
  simp only [Pi.div_apply, id_eq]
  field_simp
  ring

end

/-- The terms of the exponent after the leading two. -/
noncomputable def Q (u t : ℝ) : ℝ :=
  (8 * t ^ 2 - 12 * t + 9) / 48 * u + (8 * t - 3) / 64 * u ^ 2
    - (2048 * t ^ 6 - 9216 * t ^ 5 + 16128 * t ^ 4 - 13440 * t ^ 3 - 12240 * t ^ 2 + 7560 * t - 1890)
        / 92160 * u ^ 3
    + 3 * (1024 * t ^ 3 - 448 * t ^ 2 + 208 * t - 39) / 8192 * u ^ 4
    + (262144 * t ^ 10 - 1966080 * t ^ 9 + 6389760 * t ^ 8 - 11714560 * t ^ 7 + 13178880 * t ^ 6
        - 9225216 * t ^ 5 + 13520640 * t ^ 4 - 3588480 * t ^ 3 + 2487240 * t ^ 2 - 873180 * t
        + 130977) / 10321920 * u ^ 5
    + (1105920 * t ^ 5 - 55296 * t ^ 4 + 314624 * t ^ 3 - 159552 * t ^ 2 + 45576 * t - 5697)
        / 393216 * u ^ 6

theorem exponent_eq {y t : ℝ} (h0 : 0 < t) (h1 : t < 1) :
    riccati1Exponent y t = Real.log (t / (1 - t)) / 4
      - 2 * y * (Real.sqrt (t * (1 - t)) + Real.arcsin (Real.sqrt t) - PI_2) + Q (u y t) t := by
  have hv := v_pos h0 h1
  have hs : t * (1 - t) * (1 - t) * (1 - t) = v t ^ 2 := by rw [v_sq h0 h1]; ring
  simp only [riccati1Exponent, Q, u]
  rw [hs, Real.sqrt_sq hv.le]
  generalize 1 / (2 * y) = y1
  generalize v t = w at *
  field_simp
  ring

/-- The derivative of the exponent is `-(v/(t(1-t)))` times this polynomial over `1/(2y)`. -/
noncomputable def slope (u t : ℝ) : ℝ :=
  1 - u / 4 - u ^ 2 * (t / 4 - 3 / 32) - u ^ 3 * (3 / 8 * t ^ 2 - 3 / 16 * t + 3 / 64)
    - u ^ 4 * (3 / 4 * t ^ 3 - 11 / 32 * t ^ 2 + 21 / 128 * t - 63 / 2048)
    - u ^ 5 * (15 / 8 * t ^ 4 - 39 / 64 * t ^ 3 + 273 / 512 * t ^ 2 - 195 / 1024 * t + 117 / 4096)
    - u ^ 6 * (45 / 8 * t ^ 5 - 15 / 32 * t ^ 4 + 449 / 256 * t ^ 3 - 903 / 1024 * t ^ 2
        + 2079 / 8192 * t - 2079 / 65536)
    - u ^ 7 * (315 / 16 * t ^ 6 + 9 / 2 * t ^ 5 + 3615 / 512 * t ^ 4 - 4155 / 1024 * t ^ 3
        + 27537 / 16384 * t ^ 2 - 13293 / 32768 * t + 5697 / 131072)

/-- The polynomial that the code has in its place. -/
noncomputable def codeSlope (u t : ℝ) : ℝ :=
  slope u t + u ^ 6 * (-15 / 16 * t ^ 4 + 449 / 128 * t ^ 3 - 903 / 512 * t ^ 2
    + 2079 / 4096 * t - 2079 / 32768)

/-- The derivative of `Q` along a curve. -/
theorem Q_deriv {w : ℝ → ℝ} {w' t : ℝ} (hw : HasDerivAt w w' t) :
    HasDerivAt (fun t => Q (w t) t)
      ((16 * t - 12) / 48 * w t + (8 * t ^ 2 - 12 * t + 9) / 48 * w'
        + 8 / 64 * w t ^ 2 + (8 * t - 3) / 64 * (2 * w t * w')
        - ((12288 * t ^ 5 - 46080 * t ^ 4 + 64512 * t ^ 3 - 40320 * t ^ 2 - 24480 * t + 7560)
            / 92160 * w t ^ 3
          + (2048 * t ^ 6 - 9216 * t ^ 5 + 16128 * t ^ 4 - 13440 * t ^ 3 - 12240 * t ^ 2 + 7560 * t
              - 1890) / 92160 * (3 * w t ^ 2 * w'))
        + (3 * (3072 * t ^ 2 - 896 * t + 208) / 8192 * w t ^ 4
          + 3 * (1024 * t ^ 3 - 448 * t ^ 2 + 208 * t - 39) / 8192 * (4 * w t ^ 3 * w'))
        + ((2621440 * t ^ 9 - 17694720 * t ^ 8 + 51118080 * t ^ 7 - 82001920 * t ^ 6
              + 79073280 * t ^ 5 - 46126080 * t ^ 4 + 54082560 * t ^ 3 - 10765440 * t ^ 2
              + 4974480 * t - 873180) / 10321920 * w t ^ 5
          + (262144 * t ^ 10 - 1966080 * t ^ 9 + 6389760 * t ^ 8 - 11714560 * t ^ 7
              + 13178880 * t ^ 6 - 9225216 * t ^ 5 + 13520640 * t ^ 4 - 3588480 * t ^ 3
              + 2487240 * t ^ 2 - 873180 * t + 130977) / 10321920 * (5 * w t ^ 4 * w'))
        + ((5529600 * t ^ 4 - 221184 * t ^ 3 + 943872 * t ^ 2 - 319104 * t + 45576) / 393216
              * w t ^ 6
          + (1105920 * t ^ 5 - 55296 * t ^ 4 + 314624 * t ^ 3 - 159552 * t ^ 2 + 45576 * t - 5697)
              / 393216 * (6 * w t ^ 5 * w'))) t := by
  have p (n : ℕ) : HasDerivAt (fun t : ℝ => t ^ n) (n * t ^ (n - 1)) t := hasDerivAt_pow n t
  have id := hasDerivAt_id' t
  have c1 : HasDerivAt (fun t : ℝ => (8 * t ^ 2 - 12 * t + 9) / 48) _ t :=
    ((((p 2).const_mul 8).sub (id.const_mul 12)).add_const 9).div_const 48
  have c2 : HasDerivAt (fun t : ℝ => (8 * t - 3) / 64) _ t :=
    ((id.const_mul 8).sub_const 3).div_const 64
  have c3 : HasDerivAt (fun t : ℝ => (2048 * t ^ 6 - 9216 * t ^ 5 + 16128 * t ^ 4 - 13440 * t ^ 3
      - 12240 * t ^ 2 + 7560 * t - 1890) / 92160) _ t :=
    (((((((((p 6).const_mul 2048).sub ((p 5).const_mul 9216)).add ((p 4).const_mul 16128)).sub
      ((p 3).const_mul 13440)).sub ((p 2).const_mul 12240)).add (id.const_mul 7560)).sub_const
      1890)).div_const 92160
  have c4 : HasDerivAt (fun t : ℝ => 3 * (1024 * t ^ 3 - 448 * t ^ 2 + 208 * t - 39) / 8192) _ t :=
    ((((((p 3).const_mul 1024).sub ((p 2).const_mul 448)).add (id.const_mul 208)).sub_const
      39).const_mul 3).div_const 8192
  have c5 : HasDerivAt (fun t : ℝ => (262144 * t ^ 10 - 1966080 * t ^ 9 + 6389760 * t ^ 8
      - 11714560 * t ^ 7 + 13178880 * t ^ 6 - 9225216 * t ^ 5 + 13520640 * t ^ 4 - 3588480 * t ^ 3
      + 2487240 * t ^ 2 - 873180 * t + 130977) / 10321920) _ t :=
    ((((((((((((p 10).const_mul 262144).sub ((p 9).const_mul 1966080)).add
      ((p 8).const_mul 6389760)).sub ((p 7).const_mul 11714560)).add
      ((p 6).const_mul 13178880)).sub ((p 5).const_mul 9225216)).add
      ((p 4).const_mul 13520640)).sub ((p 3).const_mul 3588480)).add
      ((p 2).const_mul 2487240)).sub (id.const_mul 873180)).add_const 130977).div_const 10321920
  have c6 : HasDerivAt (fun t : ℝ => (1105920 * t ^ 5 - 55296 * t ^ 4 + 314624 * t ^ 3
      - 159552 * t ^ 2 + 45576 * t - 5697) / 393216) _ t :=
    (((((((p 5).const_mul 1105920).sub ((p 4).const_mul 55296)).add ((p 3).const_mul 314624)).sub
      ((p 2).const_mul 159552)).add (id.const_mul 45576)).sub_const 5697).div_const 393216
  refine ((((((c1.mul hw).add (c2.mul (hw.pow 2))).sub (c3.mul (hw.pow 3))).add
    (c4.mul (hw.pow 4))).add (c5.mul (hw.pow 5))).add (c6.mul (hw.pow 6))).congr_deriv ?_
  simp only [Pi.pow_apply]
  push_cast
  ring

theorem exponent_deriv {y t : ℝ} (hy : y ≠ 0) (h0 : 0 < t) (h1 : t < 1) :
    HasDerivAt (riccati1Exponent y)
      (-(2 * y) * (v t / (t * (1 - t))) * slope (u y t) t) t := by
  have h2 : 0 < 1 - t := by linarith
  have hv := v_pos h0 h1
  have hd := ((log_deriv' h0 h1).sub ((leading_deriv h0 h1).const_mul (2 * y))).add
    (Q_deriv (u_deriv h0 h1 y))
  have he : riccati1Exponent y =ᶠ[nhds t] fun t => Real.log (t / (1 - t)) / 4
      - 2 * y * (Real.sqrt (t * (1 - t)) + Real.arcsin (Real.sqrt t) - PI_2) + Q (u y t) t :=
    Filter.mem_of_superset (Ioo_mem_nhds h0 h1) fun s hs => exponent_eq hs.1 hs.2
  refine (hd.congr_of_eventuallyEq he).congr_deriv ?_
  have hu : 1 = 2 * y * u y t * v t := by rw [u]; field_simp
  have e : -(2 * y) * (v t / (t * (1 - t))) * slope (u y t) t
      = -(2 * y) * (v t / (t * (1 - t)))
        + (2 * y * u y t * v t) / (t * (1 - t)) * ((1 - slope (u y t) t) / u y t) := by
    have : u y t ≠ 0 := by rw [u]; positivity
    field_simp
    ring
  rw [e, ← hu]
  have hn : u y t ≠ 0 := by rw [u]; positivity
  rw [slope]
  generalize u y t = w at *
  field_simp
  ring

/-- Coefficient of order 5 of the relative defect. -/
noncomputable def r5 (t : ℝ) : ℝ :=
  3 / 32 * t ^ 3 - 21 / 256 * t ^ 2 + 15 / 512 * t - 9 / 2048

/-- Coefficient of order 8 of the relative defect. -/
noncomputable def r8 (t : ℝ) : ℝ :=
  315 / 2 * t ^ 7 + 189 / 2 * t ^ 6 + 4761 / 64 * t ^ 5 - 79811 / 2048 * t ^ 4 + 85479 / 4096 * t
    ^ 3 - 239589 / 32768 * t ^ 2 + 199305 / 131072 * t - 597915 / 4194304

/-- Coefficient of order 9 of the relative defect. -/
noncomputable def r9 (t : ℝ) : ℝ :=
  135 / 8 * t ^ 7 - 1563 / 256 * t ^ 6 + 837 / 128 * t ^ 5 - 46557 / 8192 * t ^ 4 + 175167 /
    65536 * t ^ 3 - 437535 / 524288 * t ^ 2 + 162081 / 1048576 * t - 54027 / 4194304

/-- Coefficient of order 10 of the relative defect. -/
noncomputable def r10 (t : ℝ) : ℝ :=
  855 / 32 * t ^ 8 - 2781 / 256 * t ^ 7 + 51705 / 4096 * t ^ 6 - 158293 / 16384 * t ^ 5 + 1483437
    / 262144 * t ^ 4 - 142353 / 65536 * t ^ 3 + 297981 / 524288 * t ^ 2 - 765315 / 8388608 * t +
    459189 / 67108864

/-- Coefficient of order 11 of the relative defect. -/
noncomputable def r11 (t : ℝ) : ℝ :=
  405 / 8 * t ^ 9 - 1971 / 128 * t ^ 8 + 55509 / 2048 * t ^ 7 - 307395 / 16384 * t ^ 6 + 769869 /
    65536 * t ^ 5 - 2932461 / 524288 * t ^ 4 + 495603 / 262144 * t ^ 3 - 3751893 / 8388608 * t ^
    2 + 1103949 / 16777216 * t - 301077 / 67108864

/-- Coefficient of order 12 of the relative defect. -/
noncomputable def r12 (t : ℝ) : ℝ :=
  3375 / 32 * t ^ 10 - 6345 / 512 * t ^ 9 + 253701 / 4096 * t ^ 8 - 623991 / 16384 * t ^ 7 +
    3269747 / 131072 * t ^ 6 - 7348857 / 524288 * t ^ 5 + 25568829 / 4194304 * t ^ 4 - 16075755 /
    8388608 * t ^ 3 + 27999675 / 67108864 * t ^ 2 - 14987025 / 268435456 * t + 14987025 /
    4294967296

/-- Coefficient of order 13 of the relative defect. -/
noncomputable def r13 (t : ℝ) : ℝ :=
  14175 / 64 * t ^ 11 + 8235 / 256 * t ^ 10 + 147735 / 1024 * t ^ 9 - 145827 / 2048 * t ^ 8 +
    3246357 / 65536 * t ^ 7 - 16667301 / 524288 * t ^ 6 + 18055923 / 1048576 * t ^ 5 - 116358255
    / 16777216 * t ^ 4 + 132772041 / 67108864 * t ^ 3 - 208949139 / 536870912 * t ^ 2 + 51324273
    / 1073741824 * t - 11844063 / 4294967296

/-- Coefficient of order 14 of the relative defect. -/
noncomputable def r14 (t : ℝ) : ℝ :=
  99225 / 256 * t ^ 12 + 2835 / 16 * t ^ 11 + 1221669 / 4096 * t ^ 10 - 788265 / 8192 * t ^ 9 +
    20843415 / 262144 * t ^ 8 - 3810573 / 65536 * t ^ 7 + 160467039 / 4194304 * t ^ 6 - 79594479
    / 4194304 * t ^ 5 + 1806762249 / 268435456 * t ^ 4 - 460733481 / 268435456 * t ^ 3 +
    166791069 / 536870912 * t ^ 2 - 75730221 / 2147483648 * t + 32455809 / 17179869184

/-- The relative defect of the wave equation. -/
noncomputable def defect (u t : ℝ) : ℝ :=
  u ^ 5 * r5 t + u ^ 8 * r8 t + u ^ 9 * r9 t + u ^ 10 * r10 t + u ^ 11 * r11 t + u ^ 12 * r12 t + u ^ 13 * r13 t + u ^ 14 * r14 t

theorem r5_bound {t : ℝ} (h0 : 0 ≤ t) (h1 : t ≤ 5 / 6) : |r5 t| ≤ 3 / 20 := by
  have hn (n : ℕ) : 0 ≤ t ^ n := by positivity
  have hp (n : ℕ) : t ^ n ≤ (5 / 6) ^ n := pow_le_pow_left₀ h0 h1 n
  have a2 := hn 2
  have b2 := hp 2
  have a3 := hn 3
  have b3 := hp 3
  rw [r5, abs_le]
  norm_num at *
  constructor <;> linarith

theorem r8_bound {t : ℝ} (h0 : 0 ≤ t) (h1 : t ≤ 5 / 6) : |r8 t| ≤ 7143 / 50 := by
  have hn (n : ℕ) : 0 ≤ t ^ n := by positivity
  have hp (n : ℕ) : t ^ n ≤ (5 / 6) ^ n := pow_le_pow_left₀ h0 h1 n
  have a2 := hn 2
  have b2 := hp 2
  have a3 := hn 3
  have b3 := hp 3
  have a4 := hn 4
  have b4 := hp 4
  have a5 := hn 5
  have b5 := hp 5
  have a6 := hn 6
  have b6 := hp 6
  have a7 := hn 7
  have b7 := hp 7
  rw [r8, abs_le]
  norm_num at *
  constructor <;> linarith

theorem r9_bound {t : ℝ} (h0 : 0 ≤ t) (h1 : t ≤ 5 / 6) : |r9 t| ≤ 72 / 5 := by
  have hn (n : ℕ) : 0 ≤ t ^ n := by positivity
  have hp (n : ℕ) : t ^ n ≤ (5 / 6) ^ n := pow_le_pow_left₀ h0 h1 n
  have a2 := hn 2
  have b2 := hp 2
  have a3 := hn 3
  have b3 := hp 3
  have a4 := hn 4
  have b4 := hp 4
  have a5 := hn 5
  have b5 := hp 5
  have a6 := hn 6
  have b6 := hp 6
  have a7 := hn 7
  have b7 := hp 7
  rw [r9, abs_le]
  norm_num at *
  constructor <;> linarith

theorem r10_bound {t : ℝ} (h0 : 0 ≤ t) (h1 : t ≤ 5 / 6) : |r10 t| ≤ 1091 / 50 := by
  have hn (n : ℕ) : 0 ≤ t ^ n := by positivity
  have hp (n : ℕ) : t ^ n ≤ (5 / 6) ^ n := pow_le_pow_left₀ h0 h1 n
  have a2 := hn 2
  have b2 := hp 2
  have a3 := hn 3
  have b3 := hp 3
  have a4 := hn 4
  have b4 := hp 4
  have a5 := hn 5
  have b5 := hp 5
  have a6 := hn 6
  have b6 := hp 6
  have a7 := hn 7
  have b7 := hp 7
  have a8 := hn 8
  have b8 := hp 8
  rw [r10, abs_le]
  norm_num at *
  constructor <;> linarith

theorem r11_bound {t : ℝ} (h0 : 0 ≤ t) (h1 : t ≤ 5 / 6) : |r11 t| ≤ 3613 / 100 := by
  have hn (n : ℕ) : 0 ≤ t ^ n := by positivity
  have hp (n : ℕ) : t ^ n ≤ (5 / 6) ^ n := pow_le_pow_left₀ h0 h1 n
  have a2 := hn 2
  have b2 := hp 2
  have a3 := hn 3
  have b3 := hp 3
  have a4 := hn 4
  have b4 := hp 4
  have a5 := hn 5
  have b5 := hp 5
  have a6 := hn 6
  have b6 := hp 6
  have a7 := hn 7
  have b7 := hp 7
  have a8 := hn 8
  have b8 := hp 8
  have a9 := hn 9
  have b9 := hp 9
  rw [r11, abs_le]
  norm_num at *
  constructor <;> linarith

theorem r12_bound {t : ℝ} (h0 : 0 ≤ t) (h1 : t ≤ 5 / 6) : |r12 t| ≤ 1257 / 20 := by
  have hn (n : ℕ) : 0 ≤ t ^ n := by positivity
  have hp (n : ℕ) : t ^ n ≤ (5 / 6) ^ n := pow_le_pow_left₀ h0 h1 n
  have a2 := hn 2
  have b2 := hp 2
  have a3 := hn 3
  have b3 := hp 3
  have a4 := hn 4
  have b4 := hp 4
  have a5 := hn 5
  have b5 := hp 5
  have a6 := hn 6
  have b6 := hp 6
  have a7 := hn 7
  have b7 := hp 7
  have a8 := hn 8
  have b8 := hp 8
  have a9 := hn 9
  have b9 := hp 9
  have a10 := hn 10
  have b10 := hp 10
  rw [r12, abs_le]
  norm_num at *
  constructor <;> linarith

theorem r13_bound {t : ℝ} (h0 : 0 ≤ t) (h1 : t ≤ 5 / 6) : |r13 t| ≤ 2893 / 25 := by
  have hn (n : ℕ) : 0 ≤ t ^ n := by positivity
  have hp (n : ℕ) : t ^ n ≤ (5 / 6) ^ n := pow_le_pow_left₀ h0 h1 n
  have a2 := hn 2
  have b2 := hp 2
  have a3 := hn 3
  have b3 := hp 3
  have a4 := hn 4
  have b4 := hp 4
  have a5 := hn 5
  have b5 := hp 5
  have a6 := hn 6
  have b6 := hp 6
  have a7 := hn 7
  have b7 := hp 7
  have a8 := hn 8
  have b8 := hp 8
  have a9 := hn 9
  have b9 := hp 9
  have a10 := hn 10
  have b10 := hp 10
  have a11 := hn 11
  have b11 := hp 11
  rw [r13, abs_le]
  norm_num at *
  constructor <;> linarith

theorem r14_bound {t : ℝ} (h0 : 0 ≤ t) (h1 : t ≤ 5 / 6) : |r14 t| ≤ 19379 / 100 := by
  have hn (n : ℕ) : 0 ≤ t ^ n := by positivity
  have hp (n : ℕ) : t ^ n ≤ (5 / 6) ^ n := pow_le_pow_left₀ h0 h1 n
  have a2 := hn 2
  have b2 := hp 2
  have a3 := hn 3
  have b3 := hp 3
  have a4 := hn 4
  have b4 := hp 4
  have a5 := hn 5
  have b5 := hp 5
  have a6 := hn 6
  have b6 := hp 6
  have a7 := hn 7
  have b7 := hp 7
  have a8 := hn 8
  have b8 := hp 8
  have a9 := hn 9
  have b9 := hp 9
  have a10 := hn 10
  have b10 := hp 10
  have a11 := hn 11
  have b11 := hp 11
  have a12 := hn 12
  have b12 := hp 12
  rw [r14, abs_le]
  norm_num at *
  constructor <;> linarith

theorem defect_bound {u t : ℝ} (hu : 0 ≤ u) (hu' : u ≤ 2122 / 10000) (h0 : 0 ≤ t) (h1 : t ≤ 5 / 6) :
    |defect u t| ≤ 1 / 1000 := by
  have hp (n : ℕ) : u ^ n ≤ (2122 / 10000) ^ n := pow_le_pow_left₀ hu hu' n
  have key (n : ℕ) {r N : ℝ} (hr : |r| ≤ N) : |u ^ n * r| ≤ (2122 / 10000) ^ n * N := by
    rw [abs_mul, abs_of_nonneg (pow_nonneg hu n)]
    exact mul_le_mul (hp n) hr (abs_nonneg _) (by positivity)
  have k5 := abs_le.mp (key 5 (r5_bound h0 h1))
  have k8 := abs_le.mp (key 8 (r8_bound h0 h1))
  have k9 := abs_le.mp (key 9 (r9_bound h0 h1))
  have k10 := abs_le.mp (key 10 (r10_bound h0 h1))
  have k11 := abs_le.mp (key 11 (r11_bound h0 h1))
  have k12 := abs_le.mp (key 12 (r12_bound h0 h1))
  have k13 := abs_le.mp (key 13 (r13_bound h0 h1))
  have k14 := abs_le.mp (key 14 (r14_bound h0 h1))
  norm_num at k5 k8 k9 k10 k11 k12 k13 k14
  rw [defect, abs_le]
  constructor <;> linarith [k5.1, k5.2, k8.1, k8.2, k9.1, k9.2, k10.1, k10.2, k11.1, k11.2, k12.1,
    k12.2, k13.1, k13.2, k14.1, k14.2]

/-- The derivative of `slope` along a curve. -/
theorem slope_deriv {w : ℝ → ℝ} {w' t : ℝ} (hw : HasDerivAt w w' t) :
    HasDerivAt (fun t => slope (w t) t)
      (-(w' / 4) - (2 * w t * w' * (t / 4 - 3 / 32) + w t ^ 2 * (1 / 4))
        - (3 * w t ^ 2 * w' * (3 / 8 * t ^ 2 - 3 / 16 * t + 3 / 64)
          + w t ^ 3 * (3 / 4 * t - 3 / 16))
        - (4 * w t ^ 3 * w' * (3 / 4 * t ^ 3 - 11 / 32 * t ^ 2 + 21 / 128 * t - 63 / 2048)
          + w t ^ 4 * (9 / 4 * t ^ 2 - 11 / 16 * t + 21 / 128))
        - (5 * w t ^ 4 * w' * (15 / 8 * t ^ 4 - 39 / 64 * t ^ 3 + 273 / 512 * t ^ 2 - 195 / 1024 * t
            + 117 / 4096)
          + w t ^ 5 * (15 / 2 * t ^ 3 - 117 / 64 * t ^ 2 + 273 / 256 * t - 195 / 1024))
        - (6 * w t ^ 5 * w' * (45 / 8 * t ^ 5 - 15 / 32 * t ^ 4 + 449 / 256 * t ^ 3
            - 903 / 1024 * t ^ 2 + 2079 / 8192 * t - 2079 / 65536)
          + w t ^ 6 * (225 / 8 * t ^ 4 - 15 / 8 * t ^ 3 + 1347 / 256 * t ^ 2 - 903 / 512 * t
            + 2079 / 8192))
        - (7 * w t ^ 6 * w' * (315 / 16 * t ^ 6 + 9 / 2 * t ^ 5 + 3615 / 512 * t ^ 4
            - 4155 / 1024 * t ^ 3 + 27537 / 16384 * t ^ 2 - 13293 / 32768 * t + 5697 / 131072)
          + w t ^ 7 * (945 / 8 * t ^ 5 + 45 / 2 * t ^ 4 + 3615 / 128 * t ^ 3 - 12465 / 1024 * t ^ 2
            + 27537 / 8192 * t - 13293 / 32768))) t := by
  have p (n : ℕ) : HasDerivAt (fun t : ℝ => t ^ n) (n * t ^ (n - 1)) t := hasDerivAt_pow n t
  have id := hasDerivAt_id' t
  have c2 : HasDerivAt (fun t : ℝ => t / 4 - 3 / 32) _ t := (id.div_const 4).sub_const (3 / 32)
  have c3 : HasDerivAt (fun t : ℝ => 3 / 8 * t ^ 2 - 3 / 16 * t + 3 / 64) _ t :=
    (((p 2).const_mul (3 / 8)).sub (id.const_mul (3 / 16))).add_const (3 / 64)
  have c4 : HasDerivAt (fun t : ℝ => 3 / 4 * t ^ 3 - 11 / 32 * t ^ 2 + 21 / 128 * t - 63 / 2048) _ t :=
    ((((p 3).const_mul (3 / 4)).sub ((p 2).const_mul (11 / 32))).add
      (id.const_mul (21 / 128))).sub_const (63 / 2048)
  have c5 : HasDerivAt (fun t : ℝ => 15 / 8 * t ^ 4 - 39 / 64 * t ^ 3 + 273 / 512 * t ^ 2
      - 195 / 1024 * t + 117 / 4096) _ t :=
    (((((p 4).const_mul (15 / 8)).sub ((p 3).const_mul (39 / 64))).add
      ((p 2).const_mul (273 / 512))).sub (id.const_mul (195 / 1024))).add_const (117 / 4096)
  have c6 : HasDerivAt (fun t : ℝ => 45 / 8 * t ^ 5 - 15 / 32 * t ^ 4 + 449 / 256 * t ^ 3
      - 903 / 1024 * t ^ 2 + 2079 / 8192 * t - 2079 / 65536) _ t :=
    ((((((p 5).const_mul (45 / 8)).sub ((p 4).const_mul (15 / 32))).add
      ((p 3).const_mul (449 / 256))).sub ((p 2).const_mul (903 / 1024))).add
      (id.const_mul (2079 / 8192))).sub_const (2079 / 65536)
  have c7 : HasDerivAt (fun t : ℝ => 315 / 16 * t ^ 6 + 9 / 2 * t ^ 5 + 3615 / 512 * t ^ 4
      - 4155 / 1024 * t ^ 3 + 27537 / 16384 * t ^ 2 - 13293 / 32768 * t + 5697 / 131072) _ t :=
    (((((((p 6).const_mul (315 / 16)).add ((p 5).const_mul (9 / 2))).add
      ((p 4).const_mul (3615 / 512))).sub ((p 3).const_mul (4155 / 1024))).add
      ((p 2).const_mul (27537 / 16384))).sub (id.const_mul (13293 / 32768))).add_const (5697 / 131072)
  refine ((((((((hw.div_const 4).const_sub 1).sub ((hw.pow 2).mul c2)).sub
    ((hw.pow 3).mul c3)).sub ((hw.pow 4).mul c4)).sub ((hw.pow 5).mul c5)).sub
    ((hw.pow 6).mul c6)).sub ((hw.pow 7).mul c7)).congr_deriv ?_
  simp only [Pi.pow_apply]
  push_cast
  ring

/-- The logarithmic derivative of the approximate solution with respect to the channel ratio. -/
noncomputable def W (y t : ℝ) : ℝ := -(v t / (t * (1 - t))) * slope (u y t) t

theorem W_deriv {y t : ℝ} (hy : y ≠ 0) (h0 : 0 < t) (h1 : t < 1) :
    ∃ W' : ℝ, HasDerivAt (W y) W' t ∧
      1 / (2 * y) * W' + W y t ^ 2 = (1 / t - 1) * (1 + defect (u y t) t) := by
  have h2 : 0 < 1 - t := by linarith
  have hv := v_pos h0 h1
  have hl : HasDerivAt (fun t : ℝ => 1 - t) (-1) t := by
    simpa using (hasDerivAt_id t).const_sub 1
  have hk : HasDerivAt (fun t => -(v t / (t * (1 - t)))) (v t / (2 * t ^ 2 * (1 - t) ^ 2)) t := by
    refine (((v_deriv h0 h1).fun_div ((hasDerivAt_id' t).fun_mul hl) (by positivity)).fun_neg).congr_deriv ?_
    field_simp
    ring
  refine ⟨_, hk.mul (slope_deriv (u_deriv h0 h1 y)), ?_⟩
  have hu : 1 / (2 * y) = u y t * v t := by rw [u]; field_simp
  have hs := v_sq h0 h1
  rw [hu, W]
  generalize u y t = w at *
  have e1 : (v t / (t * (1 - t))) ^ 2 = (1 - t) / t := by
    rw [div_pow, hs]; field_simp
  have e2 : v t * (v t / (2 * t ^ 2 * (1 - t) ^ 2)) = (1 - t) / (2 * t) := by
    rw [← mul_div_assoc, ← sq, hs]; field_simp
  have e3 : v t * (-(v t / (t * (1 - t)))) = -(1 - t) ^ 2 := by
    rw [mul_neg, ← mul_div_assoc, ← sq, hs]; field_simp
  have e (a b : ℝ) : w * v t * (v t / (2 * t ^ 2 * (1 - t) ^ 2) * a + -(v t / (t * (1 - t))) * b)
      + (-(v t / (t * (1 - t))) * a) ^ 2
      = w * ((1 - t) / (2 * t)) * a + w * (-(1 - t) ^ 2) * b + (1 - t) / t * a ^ 2 := by
    rw [← e1, ← e2, ← e3]; ring
  rw [e]
  simp only [slope, defect, r5, r8, r9, r10, r11, r12, r13, r14]
  field_simp
  ring

end Verif.Riccati

namespace Verif.Riccati

theorem codeSlope_eq {y t : ℝ} (hy : y ≠ 0) (h0 : 0 < t) (h1 : t < 1) :
    riccati1Slope y t = -(2 * y) * (v t / (t * (1 - t))) * codeSlope (u y t) t := by
  have h2 : 0 < 1 - t := by linarith
  have hv := v_pos h0 h1
  have hs := v_sq h0 h1
  have root {a b : ℝ} (hb : 0 ≤ b) (h : a = b ^ 2) : Real.sqrt a = b := by
    rw [h, Real.sqrt_sq hb]
  have e0 : Real.sqrt ((1 - t) / t) = v t / (t * (1 - t)) := root (by positivity) (by
    rw [div_pow, hs]; field_simp)
  have e2 : Real.sqrt (t ^ 3 * (1 - t) ^ 5) = t * (1 - t) * v t := root (by positivity) (by
    rw [mul_pow, hs]; ring)
  have e4 : Real.sqrt (t ^ 5 * (1 - t) ^ 11) = t * (1 - t) * v t ^ 3 := root (by positivity) (by
    rw [show (t * (1 - t) * v t ^ 3) ^ 2 = (t * (1 - t)) ^ 2 * (v t ^ 2) ^ 3 by ring, hs]; ring)
  have e6 : Real.sqrt (t ^ 7 * (1 - t) ^ 17) = t * (1 - t) * v t ^ 5 := root (by positivity) (by
    rw [show (t * (1 - t) * v t ^ 5) ^ 2 = (t * (1 - t)) ^ 2 * (v t ^ 2) ^ 5 by ring, hs]; ring)
  have f3 : 64 * t * t * (1 - t) ^ 4 = 64 * (t * (1 - t)) * v t ^ 2 := by rw [hs]; ring
  have f5 : 4096 * t * t * t * (1 - t) ^ 7 = 4096 * (t * (1 - t)) * v t ^ 4 := by
    rw [show v t ^ 4 = (v t ^ 2) ^ 2 by ring, hs]; ring
  have f7 : 131072 * t ^ 4 * (1 - t) ^ 10 = 131072 * (t * (1 - t)) * v t ^ 6 := by
    rw [show v t ^ 6 = (v t ^ 2) ^ 3 by ring, hs]; ring
  simp only [riccati1Slope]
  rw [e0, e2, e4, e6, f3, f5, f7, codeSlope, slope]
  have hu : 1 / (2 * y) = u y t * v t := by rw [u]; field_simp
  have hy' : 2 * y = 1 / (u y t * v t) := by rw [← hu]; field_simp
  have hn : u y t ≠ 0 := by rw [u]; positivity
  rw [hu, hy']
  generalize u y t = w at *
  generalize v t = z at *
  field_simp
  ring

theorem codeSlope_near {u t : ℝ} (hu : 0 ≤ u) (hu' : u ≤ 2122 / 10000) (h0 : 0 ≤ t)
    (h1 : t ≤ 5 / 6) : |codeSlope u t - slope u t| ≤ 1 / 9000 := by
  have hp : u ^ 6 ≤ (2122 / 10000) ^ 6 := pow_le_pow_left₀ hu hu' 6
  have hb : |(-15 / 16 * t ^ 4 + 449 / 128 * t ^ 3 - 903 / 512 * t ^ 2 + 2079 / 4096 * t
      - 2079 / 32768)| ≤ 6 / 5 := by
    have q1 : 0 ≤ 449 / 128 * t ^ 2 - 903 / 512 * t + 2079 / 4096 := by
      nlinarith [sq_nonneg (t - 1 / 4)]
    have q2 : 449 / 128 * t ^ 2 - 903 / 512 * t + 2079 / 4096 ≤ 3 / 2 := by nlinarith
    have q3 : t * (449 / 128 * t ^ 2 - 903 / 512 * t + 2079 / 4096) ≤ 5 / 6 * (3 / 2) :=
      mul_le_mul h1 q2 q1 (by norm_num)
    have q4 := mul_nonneg h0 q1
    have t4 : 0 ≤ t ^ 4 := by positivity
    have t4' : t ^ 4 ≤ (5 / 6) ^ 4 := pow_le_pow_left₀ h0 h1 4
    have e : -15 / 16 * t ^ 4 + 449 / 128 * t ^ 3 - 903 / 512 * t ^ 2 + 2079 / 4096 * t
      - 2079 / 32768 = t * (449 / 128 * t ^ 2 - 903 / 512 * t + 2079 / 4096) - 15 / 16 * t ^ 4
        - 2079 / 32768 := by ring
    rw [e, abs_le]
    norm_num at t4'
    constructor <;> linarith
  rw [codeSlope, add_sub_cancel_left, abs_mul, abs_of_nonneg (pow_nonneg hu 6)]
  calc u ^ 6 * _ ≤ (2122 / 10000) ^ 6 * (6 / 5) := mul_le_mul hp hb (abs_nonneg _) (by positivity)
    _ ≤ 1 / 9000 := by norm_num

theorem slope_large {u t : ℝ} (hu : 0 ≤ u) (hu' : u ≤ 2122 / 10000) (h0 : 0 ≤ t)
    (h1 : t ≤ 5 / 6) : 9 / 10 ≤ slope u t := by
  have hp (n : ℕ) : u ^ n ≤ (2122 / 10000) ^ n := pow_le_pow_left₀ hu hu' n
  have hn (n : ℕ) : 0 ≤ t ^ n := by positivity
  have hq (n : ℕ) : t ^ n ≤ (5 / 6) ^ n := pow_le_pow_left₀ h0 h1 n
  have key (n : ℕ) {r N : ℝ} (hr : r ≤ N) (hN : 0 ≤ N) : u ^ n * r ≤ (2122 / 10000) ^ n * N :=
    (mul_le_mul_of_nonneg_left hr (pow_nonneg hu n)).trans (mul_le_mul_of_nonneg_right (hp n) hN)
  have n2 := hn 2
  have n3 := hn 3
  have m2 := hq 2
  have m3 := hq 3
  have m4 := hq 4
  have m5 := hq 5
  have m6 := hq 6
  have n4 := hn 4
  norm_num at m2 m3 m4 m5 m6
  have k2 := key 2 (r := t / 4 - 3 / 32) (N := 1 / 4) (by linarith) (by norm_num)
  have k3 := key 3 (r := 3 / 8 * t ^ 2 - 3 / 16 * t + 3 / 64) (N := 1 / 2) (by linarith) (by norm_num)
  have k4 := key 4 (r := 3 / 4 * t ^ 3 - 11 / 32 * t ^ 2 + 21 / 128 * t - 63 / 2048) (N := 1)
    (by linarith) (by norm_num)
  have k5 := key 5 (r := 15 / 8 * t ^ 4 - 39 / 64 * t ^ 3 + 273 / 512 * t ^ 2 - 195 / 1024 * t
    + 117 / 4096) (N := 3) (by linarith) (by norm_num)
  have k6 := key 6 (r := 45 / 8 * t ^ 5 - 15 / 32 * t ^ 4 + 449 / 256 * t ^ 3 - 903 / 1024 * t ^ 2
    + 2079 / 8192 * t - 2079 / 65536) (N := 10) (by linarith) (by norm_num)
  have k7 := key 7 (r := 315 / 16 * t ^ 6 + 9 / 2 * t ^ 5 + 3615 / 512 * t ^ 4 - 4155 / 1024 * t ^ 3
    + 27537 / 16384 * t ^ 2 - 13293 / 32768 * t + 5697 / 131072) (N := 20) (by linarith) (by norm_num)
  rw [slope]
  norm_num at k2 k3 k4 k5 k6 k7
  linarith

/-- In the region where the expansion is used directly its parameter is small. -/
theorem u_small {η ρ : ℝ} (hη : 15 ≤ η) (h1 : 16 ≤ ρ) (h2 : ρ ≤ 5 * η / 3 - 5) :
    0 < u η (ρ * (1 / (2 * η))) ∧ u η (ρ * (1 / (2 * η))) ≤ 2122 / 10000 := by
  have hη0 : 0 < η := by linarith
  have ht0 : 0 < ρ * (1 / (2 * η)) := by positivity
  have ht1 : ρ * (1 / (2 * η)) < 1 := by
    rw [mul_one_div, div_lt_one (by positivity)]; linarith
  have hv := v_pos ht0 ht1
  have hs := v_sq ht0 ht1
  set t := ρ * (1 / (2 * η)) with ht
  refine ⟨by rw [u]; positivity, ?_⟩
  -- the claim squared
  have main : 800 / 9 * η ^ 2 ≤ ρ * (2 * η - ρ) ^ 3 := by
    obtain ⟨d, hd⟩ : ∃ d, d = 2 * η - ρ := ⟨_, rfl⟩
    have hρ : ρ = 2 * η - d := by rw [hd]; ring
    have hd1 : η ≤ 3 * (d - 5) := by rw [hd]; linarith
    have hd10 : 10 ≤ d := by linarith
    rw [← hd, hρ]
    rw [hρ] at h1
    -- concave in `η` between its bounds
    have conc (a : ℝ) (ha : a ≤ η) (hga : 0 ≤ 2 * a * d ^ 3 - d ^ 4 - 800 / 9 * a ^ 2) :
        800 / 9 * η ^ 2 ≤ (2 * η - d) * d ^ 3 := by
      have hgb : 0 ≤ 2 * (3 * (d - 5)) * d ^ 3 - d ^ 4 - 800 / 9 * (3 * (d - 5)) ^ 2 := by
        nlinarith [mul_nonneg (sub_nonneg.mpr hd10) (sq_nonneg d),
          mul_nonneg (sub_nonneg.mpr hd10) (mul_nonneg (sub_nonneg.mpr hd10) (sq_nonneg d)),
          sq_nonneg (d - 10), mul_nonneg (sub_nonneg.mpr hd10) (sq_nonneg (d - 10))]
      rcases ha.eq_or_lt with rfl | hlt
      · linarith
      · have hb : 0 < 3 * (d - 5) - a := by linarith
        have e : (3 * (d - 5) - a) * ((2 * η - d) * d ^ 3 - 800 / 9 * η ^ 2)
            = (3 * (d - 5) - η) * (2 * a * d ^ 3 - d ^ 4 - 800 / 9 * a ^ 2)
              + (η - a) * (2 * (3 * (d - 5)) * d ^ 3 - d ^ 4 - 800 / 9 * (3 * (d - 5)) ^ 2)
              + 800 / 9 * (3 * (d - 5) - a) * (3 * (d - 5) - η) * (η - a) := by ring
        have p1 := mul_nonneg (sub_nonneg.mpr hd1) hga
        have p2 := mul_nonneg (sub_nonneg.mpr ha) hgb
        have p3 := mul_nonneg (mul_nonneg (mul_nonneg (by norm_num : (0 : ℝ) ≤ 800 / 9) hb.le)
          (sub_nonneg.mpr hd1)) (sub_nonneg.mpr ha)
        have : 0 ≤ (3 * (d - 5) - a) * ((2 * η - d) * d ^ 3 - 800 / 9 * η ^ 2) := by
          rw [e]; linarith
        have := nonneg_of_mul_nonneg_right this hb
        linarith
    rcases le_total d 14 with hd14 | hd14
    · refine conc 15 hη ?_
      nlinarith [mul_nonneg (sub_nonneg.mpr hd10) (sub_nonneg.mpr hd14),
        mul_nonneg (mul_nonneg (sub_nonneg.mpr hd10) (sub_nonneg.mpr hd14)) (sq_nonneg d),
        mul_nonneg (mul_nonneg (sub_nonneg.mpr hd10) (sub_nonneg.mpr hd14)) (by linarith : 0 ≤ d)]
    · refine conc ((d + 16) / 2) (by linarith) ?_
      nlinarith [mul_nonneg (sub_nonneg.mpr hd14) (sq_nonneg d), sq_nonneg (d - 14),
        mul_nonneg (sub_nonneg.mpr hd14) (by linarith : 0 ≤ d)]
  have hv2 : v t ^ 2 = ρ * (2 * η - ρ) ^ 3 / (2 * η) ^ 4 := by
    rw [hs, ht]; field_simp
  rw [u, div_le_iff₀ hv]
  refine le_of_sq_le_sq ?_ (by positivity)
  rw [mul_pow, hv2, ← mul_div_assoc, le_div_iff₀ (by positivity)]
  have : (1 / (2 * η)) ^ 2 * (2 * η) ^ 4 = 4 * η ^ 2 := by field_simp; ring
  rw [this]
  linarith [sq_nonneg η]

end Verif.Riccati
