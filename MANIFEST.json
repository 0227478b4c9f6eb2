{
 "claims": [
  {
   "property": "C02",
   "status": "proved",
   "theorems": [
    "Verif.C02_spin_factors_exhaust"
   ],
   "note": ""
  },
  {
   "property": "C03",
   "status": "proved",
   "theorems": [
    "Verif.C03_channelSpins",
    "Verif.C03_totalAngularMomenta"
   ],
   "note": ""
  },
  {
   "property": "C04",
   "status": "partial",
   "theorems": [
    "Verif.C04_spin_half_partial",
    "Verif.C04_exact_extent",
    "Verif.C04_disproved"
   ],
   "note": "False as stated for projectile spin above 1/2; the exact extent of the claim and a counterexample are proved."
  },
  {
   "property": "C05",
   "status": "proved",
   "theorems": [
    "Verif.C05_enumeration"
   ],
   "note": ""
  },
  {
   "property": "C06",
   "status": "proved",
   "theorems": [
    "Verif.C06_fails_iff",
    "Verif.C06_success",
    "Verif.C06_conservation",
    "Verif.C06_sign_selects_channel_spin"
   ],
   "note": ""
  },
  {
   "property": "C07",
   "status": "proved",
   "theorems": [
    "Verif.C07_channelID_injective",
    "Verif.C07_negative_values_collide"
   ],
   "note": ""
  },
  {
   "property": "C08",
   "status": "proved",
   "theorems": [
    "Verif.C08_tMatrixKey_injective"
   ],
   "note": ""
  },
  {
   "property": "C09",
   "status": "proved",
   "theorems": [
    "Verif.C09_recursion",
    "Verif.C09_bounds",
    "Verif.C09_at_zero",
    "Verif.C09_monotone",
    "Verif.C09_outgoing_wave"
   ],
   "note": ""
  },
  {
   "property": "C10",
   "status": "proved",
   "theorems": [
    "Verif.C10_rejection",
    "Verif.C10_rejection_old"
   ],
   "note": ""
  },
  {
   "property": "C11",
   "status": "proved",
   "theorems": [
    "Verif.C11_phase_recursion",
    "Verif.C09_outgoing_wave"
   ],
   "note": ""
  },
  {
   "property": "C12",
   "status": "partial",
   "theorems": [
    "Verif.C12_partial",
    "Verif.C12_disproved",
    "Verif.C12_neutral_limit",
    "Verif.C12_channel",
    "Verif.C12_channel_neutral",
    "Verif.C12_channel_s_wave"
   ],
   "note": "The code sums 1/tan(eta/n) where arctan(eta/n) is documented; the claim is disproved for l > 0. The channel theorems give the value for all channels and l."
  },
  {
   "property": "C13",
   "status": "proved",
   "theorems": [
    "Verif.C13_old_equals_new"
   ],
   "note": ""
  },
  {
   "property": "C51",
   "status": "partial",
   "theorems": [
    "Verif.C51_partial",
    "Verif.C51_exact_extent",
    "Verif.C51_disproved"
   ],
   "note": "acos loses the sign of F; right exactly when F >= 0 or G = 0."
  },
  {
   "property": "C01",
   "status": "proved",
   "theorems": [
    "Verif.C01_particle",
    "Verif.C01_pair",
    "Verif.C01_massless_pair",
    "Verif.C01_wave_number",
    "Verif.C01_threshold"
   ],
   "note": ""
  },
  {
   "property": "C14",
   "status": "proved",
   "theorems": [
    "Verif.C14_capture_nonneg",
    "Verif.C14_row_norm_le_one"
   ],
   "note": ""
  },
  {
   "property": "C15",
   "status": "proved",
   "theorems": [
    "Verif.C15_no_capture",
    "Verif.C15_row_norm_eq_one"
   ],
   "note": ""
  },
  {
   "property": "C16",
   "status": "proved",
   "theorems": [
    "Verif.C16_optical_theorem",
    "Verif.Endf.C16_reich_moore",
    "Verif.Endf.C16_old_reich_moore",
    "Verif.Endf.C16_rmatrix_limited"
   ],
   "note": "R-matrix-limited ranges: with neutral incident particles and under the conditions of C70_partial."
  },
  {
   "property": "C17",
   "status": "proved",
   "theorems": [
    "Verif.C17_symmetric"
   ],
   "note": ""
  },
  {
   "property": "C18",
   "status": "proved",
   "theorems": [
    "Verif.C18_closed_tMatrix",
    "Verif.C18_closed_cross_section",
    "Verif.C18_closed_widths_irrelevant"
   ],
   "note": ""
  },
  {
   "property": "C19",
   "status": "proved",
   "theorems": [
    "Verif.C19_evaluation_succeeds",
    "Verif.C19_neutral_channels",
    "Verif.C19_captures"
   ],
   "note": "C19_captures: when all resonances have an eliminated width no condition on the penetrabilities of open channels is needed."
  },
  {
   "property": "C20",
   "status": "proved",
   "theorems": [
    "Verif.C20_resonance_order",
    "Verif.C20_signs",
    "Verif.C20_signs_t_matrix",
    "Verif.C20_channel_order_t_matrix",
    "Verif.C20_channel_order"
   ],
   "note": ""
  },
  {
   "property": "C21",
   "status": "proved",
   "theorems": [
    "Verif.C21_nonneg",
    "Verif.C21_system"
   ],
   "note": ""
  },
  {
   "property": "C22",
   "status": "proved",
   "theorems": [
    "Verif.C22_accumulates",
    "Verif.C22_twice",
    "Verif.C22_tMatrix_idempotent",
    "Verif.C22_system",
    "Verif.C22_system_order",
    "Verif.C22_system_tMatrix",
    "Verif.C22_system_tMatrix_idempotent"
   ],
   "note": ""
  },
  {
   "property": "C23",
   "status": "proved",
   "theorems": [
    "Verif.C23_history_independent",
    "Verif.C23_system",
    "Verif.C23_any_history",
    "Verif.BreitWigner.C23_breitWigner_group",
    "Verif.BreitWigner.C23_breitWigner",
    "Verif.BreitWigner.C23_breitWigner_any_history",
    "Verif.Reconstructor.C41_values"
   ],
   "note": ""
  },
  {
   "property": "C24",
   "status": "partial",
   "theorems": [
    "Verif.C24_accepted",
    "Verif.C24_contents",
    "Verif.C24_partial",
    "Verif.C24_disproved"
   ],
   "note": "An empty list of channels is undefined behaviour instead of an exception."
  },
  {
   "property": "C52",
   "status": "partial",
   "theorems": [
    "Verif.C52_partial",
    "Verif.C52_exact_extent",
    "Verif.C52_disproved"
   ],
   "note": "Charged channels with l >= 1 scatter although nothing is there: the code compares U, which carries exp(2iw), with exp(iw)."
  },
  {
   "property": "C53",
   "status": "proved",
   "theorems": [
    "Verif.C53_documented_formulas"
   ],
   "note": ""
  },
  {
   "property": "C25",
   "status": "proved",
   "theorems": [
    "Verif.C25_group_accepted",
    "Verif.C25_group_contents",
    "Verif.C25_only_eliminated",
    "Verif.C25_accepted",
    "Verif.C25_contents"
   ],
   "note": ""
  },
  {
   "property": "C26",
   "status": "proved",
   "theorems": [
    "Verif.C26_accepted",
    "Verif.C26_contents"
   ],
   "note": ""
  },
  {
   "property": "C27",
   "status": "partial",
   "theorems": [
    "Verif.C27_partial",
    "Verif.C27_disproved"
   ],
   "note": "A channel that lists an energy twice keeps only the last width."
  },
  {
   "property": "C28",
   "status": "proved",
   "theorems": [
    "Verif.C28_consolidation"
   ],
   "note": ""
  },
  {
   "property": "C40",
   "status": "proved",
   "theorems": [
    "Verif.C40_group",
    "Verif.C40_group_exists",
    "Verif.C40_system",
    "Verif.BreitWigner.C40_breitWigner_group",
    "Verif.BreitWigner.C40_breitWigner_system"
   ],
   "note": ""
  },
  {
   "property": "C32",
   "status": "proved",
   "theorems": [
    "Verif.BreitWigner.C32_group",
    "Verif.BreitWigner.C32_system",
    "Verif.BreitWigner.C32_nonneg",
    "Verif.BreitWigner.C32_physical"
   ],
   "note": ""
  },
  {
   "property": "C33",
   "status": "proved",
   "theorems": [
    "Verif.BreitWigner.C33_nonneg",
    "Verif.BreitWigner.C33_system_nonneg",
    "Verif.BreitWigner.C34_elastic_only",
    "Verif.BreitWigner.C33_elastic_can_be_negative"
   ],
   "note": ""
  },
  {
   "property": "C34",
   "status": "proved",
   "theorems": [
    "Verif.BreitWigner.C34_elastic_only",
    "Verif.BreitWigner.C34_one_resonance"
   ],
   "note": ""
  },
  {
   "property": "C35",
   "status": "proved",
   "theorems": [
    "Verif.BreitWigner.C35_accepted",
    "Verif.BreitWigner.C35_contents",
    "Verif.BreitWigner.C35_potential",
    "Verif.Unresolved.C35_unresolved"
   ],
   "note": ""
  },
  {
   "property": "C36",
   "status": "partial",
   "theorems": [
    "Verif.BreitWigner.C36_partial",
    "Verif.BreitWigner.C36_disproved",
    "Verif.BreitWigner.C36_always_undefined"
   ],
   "note": "penetrability() reads a member that is never initialised; every other accessor is right."
  },
  {
   "property": "C54",
   "status": "partial",
   "theorems": [
    "Verif.BreitWigner.C32_physical",
    "Verif.BreitWigner.C54_disproved"
   ],
   "note": "True when all groups share one phase shift radius (C32_physical); false for radii that depend on l, because potential scattering uses the radius of the first group for every l."
  },
  {
   "property": "C37",
   "status": "proved",
   "theorems": [
    "Verif.Unresolved.C37_averages",
    "Verif.Unresolved.C37_sum_rule",
    "Verif.Unresolved.C37_constant",
    "Verif.Unresolved.C37_nonneg",
    "Verif.Unresolved.C37_exists"
   ],
   "note": ""
  },
  {
   "property": "C38",
   "status": "partial",
   "theorems": [
    "Verif.Unresolved.C38_partial",
    "Verif.Unresolved.C38_disproved",
    "Verif.Unresolved.C38_exactly",
    "Verif.Unresolved.C38_accepted"
   ],
   "note": "False for tables with zero degrees of freedom for the elastic width, which are accepted; true for all others."
  },
  {
   "property": "C39",
   "status": "proved",
   "theorems": [
    "Verif.Unresolved.C39_grid",
    "Verif.Unresolved.C39_zero"
   ],
   "note": ""
  },
  {
   "property": "C49",
   "status": "proved",
   "theorems": [
    "Verif.Unresolved.C49_contributions"
   ],
   "note": ""
  },
  {
   "property": "C55",
   "status": "proved",
   "theorems": [
    "Verif.Unresolved.C55_moments"
   ],
   "note": ""
  },
  {
   "property": "C56",
   "status": "proved",
   "theorems": [
    "Verif.Unresolved.C56_scaling"
   ],
   "note": ""
  },
  {
   "property": "C41",
   "status": "proved",
   "theorems": [
    "Verif.Reconstructor.C41_values",
    "Verif.Reconstructor.C41_empty",
    "Verif.Reconstructor.C41_grid",
    "Verif.Reconstructor.C41_grid_exists",
    "Verif.Reconstructor.C41_kind"
   ],
   "note": ""
  },
  {
   "property": "C29",
   "status": "proved",
   "theorems": [
    "Verif.Endf.C29_elastic_channels",
    "Verif.Endf.C29_accepted",
    "Verif.Endf.C29_fission_twice_rejected"
   ],
   "note": ""
  },
  {
   "property": "C57",
   "status": "proved",
   "theorems": [
    "Verif.BreitWigner.C57_single_level",
    "Verif.BreitWigner.C57_multi_level",
    "Verif.BreitWigner.C57_multi_level_elastic"
   ],
   "note": ""
  },
  {
   "property": "C30",
   "status": "partial",
   "theorems": [
    "Verif.Endf.C30_partial",
    "Verif.Endf.C30_disproved",
    "Verif.Endf.C30_dropped",
    "Verif.Endf.C30_position"
   ],
   "note": "The code violates the property: channel types come from the position in the list, and surplus channels are dropped."
  },
  {
   "property": "C31",
   "status": "partial",
   "theorems": [
    "Verif.Endf.C31_partial",
    "Verif.Endf.C31_disproved",
    "Verif.Endf.C31_breit_wigner",
    "Verif.Old.C31_old_breit_wigner_partial",
    "Verif.Old.C31_old_reich_moore_partial",
    "Verif.Old.C31_old_disproved",
    "Verif.Old.C31_old_table"
   ],
   "note": "Without a radius table the newer code accepts every NAPS other than 0 as 1; the older code flows off the end of its functions for combinations that are not allowed. All allowed combinations get the prescribed radii."
  },
  {
   "property": "C42",
   "status": "proved",
   "theorems": [
    "Verif.Endf.C42_elastic",
    "Verif.Endf.C42_other",
    "Verif.Endf.C42_reich_moore",
    "Verif.Endf.C42_reich_moore_complete",
    "Verif.Endf.C42_rmatrix",
    "Verif.Endf.C42_rmatrix_complete",
    "Verif.Endf.C42_rmatrix_exists"
   ],
   "note": ""
  },
  {
   "property": "C47",
   "status": "proved",
   "theorems": [
    "Verif.Endf.C47_unique",
    "Verif.Endf.C47_dispatch",
    "Verif.Endf.C47_unsupported",
    "Verif.Endf.C47_constructed",
    "Verif.Endf.C47_range"
   ],
   "note": ""
  },
  {
   "property": "C48",
   "status": "partial",
   "theorems": [
    "Verif.Endf.C48_partial",
    "Verif.Endf.C48_disproved",
    "Verif.Endf.C48_incident_undefined",
    "Verif.Endf.C48_capture_undefined"
   ],
   "note": "The code reads past the end of the vector of pairs instead of raising an exception."
  },
  {
   "property": "C43",
   "status": "proved",
   "theorems": [
    "Verif.Old.C43_sum",
    "Verif.Old.C43_values",
    "Verif.Old.C43_repeated",
    "Verif.Old.C43_total",
    "Verif.Old.C43_beyond"
   ],
   "note": ""
  },
  {
   "property": "C44",
   "status": "proved",
   "theorems": [
    "Verif.Old.C44_nonneg",
    "Verif.Old.C44_capture_fission",
    "Verif.Old.C44_agreement"
   ],
   "note": ""
  },
  {
   "property": "C50",
   "status": "proved",
   "theorems": [
    "Verif.Old.C50_pack",
    "Verif.Old.C50_accumulate",
    "Verif.Old.C50_cross_section",
    "Verif.C50_data",
    "Verif.C50_data_accumulate"
   ],
   "note": ""
  },
  {
   "property": "C58",
   "status": "proved",
   "theorems": [
    "Verif.Old.C58_single",
    "Verif.Old.C58_multi",
    "Verif.Old.C58_exists",
    "Verif.Old.C58_formalism"
   ],
   "note": ""
  },
  {
   "property": "C45",
   "status": "proved",
   "theorems": [
    "Verif.Old.ReichMoore.C45_capture",
    "Verif.Old.ReichMoore.C45_shortcut"
   ],
   "note": ""
  },
  {
   "property": "C46",
   "status": "partial",
   "theorems": [
    "Verif.Old.ReichMoore.C46_disproved",
    "Verif.Old.ReichMoore.C46_expansion",
    "Verif.Old.ReichMoore.C45_shortcut"
   ],
   "note": "The claim is false: the condition tests 1 + K instead of K, so the expansion is unreachable for capture widths that are not negative, and where it can be reached it has the wrong sign. What holds is that the exact formula is used for all such parameters (C45_shortcut)."
  },
  {
   "property": "C59",
   "status": "proved",
   "theorems": [
    "Verif.Old.ReichMoore.C59",
    "Verif.Old.ReichMoore.C59_exists",
    "Verif.Old.C59_formalism"
   ],
   "note": ""
  },
  {
   "property": "C60",
   "status": "proved",
   "theorems": [
    "Verif.Old.ReichMoore.C60_nonneg"
   ],
   "note": ""
  },
  {
   "property": "C61",
   "status": "partial",
   "theorems": [
    "Verif.C61_wronskian",
    "Verif.C61_logarithmic_derivative",
    "Verif.C61_never_throws",
    "Verif.C61_underflow",
    "Verif.C61_disproved",
    "Verif.C61_partial"
   ],
   "note": "Everything but positivity is proved as stated. Positivity is false: where G would exceed exp(100) all functions are returned as zero and the penetrability is reported as 0 (for instance eta = 5000/49 and every channel ratio up to 16). C61_partial: positive wherever the functions are not reported as zero."
  },
  {
   "property": "C62",
   "status": "partial",
   "theorems": [
    "Verif.C62_disproved",
    "Verif.C62_beyond",
    "Verif.C62_partial"
   ],
   "note": "False for l of 60 and more, where an array of 60 elements is read beyond its end; at l = 59 the derivatives are returned as zero. Proved for l up to 58."
  },
  {
   "property": "C63",
   "status": "partial",
   "theorems": [
    "Verif.C63_window",
    "Verif.C63_disproved",
    "Verif.C63_partial",
    "Verif.C63_uncharged"
   ],
   "note": "False: for eta of 15 and more and channel ratios between 2 eta + 0.01 and 2 eta + 0.02 the integration makes no step and the values at 2 eta are returned. Proved: consistency at l = 0 carries over to every l up to 58, and everything for eta = 0."
  },
  {
   "property": "C64",
   "status": "proved",
   "theorems": [
    "Verif.C64_relations",
    "Verif.C64_error_of_F"
   ],
   "note": ""
  },
  {
   "property": "C65",
   "status": "proved",
   "theorems": [
    "Verif.Endf.C65_cross_sections",
    "Verif.Endf.C65_regular",
    "Verif.Endf.C65_accepted"
   ],
   "note": "The elastic formula of the manual holds when the l values with resonances are 0, 1, ..., n - 1 with one mass ratio; C65_cross_sections says what is reported otherwise."
  },
  {
   "property": "C67",
   "status": "proved",
   "theorems": [
    "Verif.Endf.C67_cross_sections",
    "Verif.Endf.C67_accepted"
   ],
   "note": "For one mass ratio for all l values (the code takes that of the first l). The interpolation library is external: it is assumed to interpolate linearly (Spec.Conforms) and, for C67_accepted, to accept ascending energies (Spec.Makes)."
  },
  {
   "property": "C69",
   "status": "partial",
   "theorems": [
    "Verif.Endf.C69_cross_sections",
    "Verif.Endf.C69_elastic",
    "Verif.Endf.C69_accepted",
    "Verif.Endf.C69_disproved"
   ],
   "note": "Everything is proved but the elastic cross section of l values that have a radius APL of their own and a J without resonances: there the claim is false (C69_disproved), the channels without resonances use AP. C69_cross_sections says what is reported for every range (capture and fission as claimed), C69_elastic that elastic scattering is as claimed if the l values are different, each has resonances, and none of them has both a radius of its own and channels without resonances."
  },
  {
   "property": "C66",
   "status": "proved",
   "theorems": [
    "Verif.Endf.C66_breit_wigner",
    "Verif.Endf.C66_reich_moore",
    "Verif.Endf.C66_own_radius_differs"
   ],
   "note": "C66_own_radius_differs shows that the condition on the radii cannot be dropped: with a radius for the l value and a J without resonances the elastic cross sections differ."
  },
  {
   "property": "C70",
   "status": "partial",
   "theorems": [
    "Verif.Endf.C70_partial",
    "Verif.Endf.C70_accepted",
    "Verif.Endf.C70_charged_accepted",
    "Verif.Endf.C70_thresholds",
    "Verif.Endf.C70_disproved",
    "Verif.Endf.C70_flags"
   ],
   "note": "False in general: the flag SHF of the first pair decides the boundary condition of every channel (C70_disproved, C70_flags), equal energies are merged (C27), and channel types come from positions (C30). C70_partial: as claimed when the flags agree, the channels come in the order of the pairs with one capture channel at most, and the energies within and the spins and parities of the groups are different. C70_accepted is for neutral particles and C70_thresholds adds the energies at which their channels open, with the boundary conditions of the threshold or capture widths in all resonances; C70_charged_accepted has channels for charged particles, at energies at which the Coulomb library returns functions that are not both zero and the Coulomb phase shifts are finite."
  },
  {
   "property": "C71",
   "status": "partial",
   "theorems": [
    "Verif.Endf.C71_reduces",
    "Verif.Endf.C71_disproved",
    "Verif.Endf.C71_exact_partial",
    "Verif.Endf.C71_flag_partial",
    "Verif.Old.C71_old_reduces",
    "Verif.Old.C71_old_disproved"
   ],
   "note": "False in both generations of the code: a competitive width reduces the capture cross section at every energy, above and below the threshold (C71_reduces, C71_old_reduces: all evaluations and energies other than one). Proved: with LRX = 0 there is no effect, and with a constant radius the penetrability is the one of the manual exactly for QX = 0."
  },
  {
   "property": "C72",
   "status": "proved",
   "theorems": [
    "Verif.C72_spin_group",
    "Verif.C72_system",
    "Verif.C72_t_matrix",
    "Verif.C72_reconstructor",
    "Verif.Endf.C72_reich_moore",
    "Verif.Endf.C72_rmatrix",
    "Verif.Endf.C72_breit_wigner",
    "Verif.Endf.C72_unresolved",
    "Verif.C72_threshold_jumps",
    "Verif.Unresolved.C72_width_jump"
   ],
   "note": "C72_threshold_jumps shows that the exceptions of the statement are needed: the claim without the condition on thresholds is false for both kinds of boundary conditions. C72_width_jump does the same for the widths of unresolved ranges."
  },
  {
   "property": "C73",
   "status": "proved",
   "theorems": [
    "Verif.C73_single_level"
   ],
   "note": ""
  },
  {
   "property": "C74",
   "status": "proved",
   "theorems": [
    "Verif.C74_spin_group",
    "Verif.C74_system",
    "Verif.Endf.C74_reich_moore",
    "Verif.Endf.C74_rmatrix_limited",
    "Verif.Old.ReichMoore.C74_old_reich_moore"
   ],
   "note": "For spin factors that are not negative, as they are for the spins of particles."
  },
  {
   "property": "C75",
   "status": "partial",
   "theorems": [
    "Verif.C75_group",
    "Verif.C75_system",
    "Verif.Endf.C75_breit_wigner",
    "Verif.Endf.C75_reich_moore",
    "Verif.Endf.C75_rmatrix",
    "Verif.Endf.C75_rmatrix_partial",
    "Verif.Endf.C75_charged_partial",
    "Verif.Endf.C75_unresolved",
    "Verif.Endf.C75_disproved"
   ],
   "note": "False: at the energy of a resonance without capture width, which is a grid point, the R-matrix has a pole and there are no finite cross sections. C75_reich_moore: in Reich-Moore ranges this is the only exception. C75_rmatrix_partial: for R-matrix-limited ranges with neutral particles, also except points that happen to be thresholds. C75_rmatrix: these too, if the channels have the boundary conditions of the threshold or all resonances have a capture width. C75_charged_partial: the same with charged particles, also except points at which the Coulomb library returns no functions. Proved in full for Breit-Wigner ranges and unresolved ranges."
  },
  {
   "property": "C76",
   "status": "proved",
   "theorems": [
    "Verif.C76_spin_group",
    "Verif.C76_system",
    "Verif.C76_one_channel",
    "Verif.C76_reconstructor",
    "Verif.Endf.C76_reich_moore",
    "Verif.Endf.C76_rmatrix_limited"
   ],
   "note": ""
  },
  {
   "property": "C77",
   "status": "proved",
   "theorems": [
    "Verif.C77_channels_left_out",
    "Verif.C77_channels_added",
    "Verif.C77_t_matrix",
    "Verif.C77_system",
    "Verif.C77_resonances_left_out",
    "Verif.Endf.C77_breit_wigner",
    "Verif.Endf.C77_breit_wigner_accepted",
    "Verif.Endf.C77_reich_moore",
    "Verif.Endf.C77_reich_moore_accepted",
    "Verif.Endf.C77_rmatrix_limited",
    "Verif.Endf.C77_rmatrix_limited_accepted",
    "Verif.Endf.C77_old_single",
    "Verif.Endf.C77_old_multi",
    "Verif.Endf.C77_old_accepted",
    "Verif.Endf.C77_old_reich_moore",
    "Verif.Endf.C77_old_reich_moore_accepted"
   ],
   "note": "In a Breit-Wigner range a reaction that is absent counts as zero. An orbital momentum has to keep a resonance because the code counts potential scattering up to the highest one that has resonances. In a Reich-Moore range a J has to keep a resonance because the code gives potential scattering another radius in those that have none (design item on C69), and resonances of the same J and parity have different energies."
  },
  {
   "property": "C78",
   "status": "proved",
   "theorems": [
    "Verif.C78_independent_parts",
    "Verif.C78_t_matrix",
    "Verif.C78_part_without_incident_channels"
   ],
   "note": ""
  },
  {
   "property": "C79",
   "status": "proved",
   "theorems": [
    "Verif.C79_spin_group",
    "Verif.C79_system",
    "Verif.C79_s_waves",
    "Verif.C79_t_matrix",
    "Verif.C79_t_matrix_system"
   ],
   "note": ""
  },
  {
   "property": "C80",
   "status": "proved",
   "theorems": [
    "Verif.C80_spin_group",
    "Verif.C80_accepted",
    "Verif.C80_system",
    "Verif.C80_t_matrix",
    "Verif.BreitWigner.C80_spin_group",
    "Verif.BreitWigner.C80_accepted",
    "Verif.BreitWigner.C80_system",
    "Verif.Unresolved.C80_spin_group",
    "Verif.Unresolved.C80_system"
   ],
   "note": "Breit-Wigner groups report fission only if it does not vanish, so that there the values are compared, a reaction that is not reported having none. For the T-matrix, identifiers must not contain the arrow that joins two of them in a key."
  },
  {
   "property": "C81",
   "status": "proved",
   "theorems": [
    "Verif.C81_spin_group",
    "Verif.C81_at_threshold",
    "Verif.C81_limit_exists",
    "Verif.C81_system",
    "Verif.C81_reconstructor",
    "Verif.C81_positive",
    "Verif.Endf.C81_rmatrix_limited",
    "Verif.Endf.C70_thresholds"
   ],
   "note": ""
  },
  {
   "property": "C82",
   "status": "partial",
   "theorems": [
    "Verif.C82_below",
    "Verif.C82_partial",
    "Verif.C82_disproved"
   ],
   "note": "Below the turning point (eta >= 15) both bounds hold. Above it (5 <= eta < 15) the wave equation holds within the claimed bound but the returned derivative is wrong by more than claimed: disproved at eta = 13, rho = 325/8, and proved with one part in 80. Values away from these regions, which the code gets by numerical integration from the edges, are not covered."
  },
  {
   "property": "C83",
   "status": "proved",
   "theorems": [
    "Verif.C83_wave",
    "Verif.C83_exceptions"
   ],
   "note": "For angular momentum zero, from which all others are found by recurrence (C62). Nearer than 2 eta + 10 the code integrates numerically, which is not covered."
  },
  {
   "property": "C84",
   "status": "proved",
   "theorems": [
    "Verif.C84_limit",
    "Verif.C84_values"
   ],
   "note": "For eta of 15 and more the code starts at the turning point and integrates numerically, which is not covered; nor is the regular function."
  },
  {
   "property": "C85",
   "status": "partial",
   "theorems": [
    "Verif.C85_partial",
    "Verif.C85_far",
    "Verif.C85_disproved"
   ],
   "note": "C85_partial is for channel ratios up to 48 and a Sommerfeld parameter of zero; the claim fails for large channel ratios. Ratios between 48 and those of the failure are not covered."
  },
  {
   "property": "C86",
   "status": "proved",
   "theorems": [
    "Verif.C86_spin_group",
    "Verif.C86_system",
    "Verif.C86_t_matrix",
    "Verif.C86_accepted",
    "Verif.C86_distant",
    "Verif.C86_weak"
   ],
   "note": "With the resonances in any order, and any Coulomb library. For the T-matrix, identifiers must not contain the arrow that joins two of them in a key."
  },
  {
   "property": "C87",
   "status": "proved",
   "theorems": [
    "Verif.C87_spin_group",
    "Verif.C87_system",
    "Verif.C87_t_matrix",
    "Verif.C87_t_matrix_system",
    "Verif.C87_exists",
    "Verif.C87_accepted",
    "Verif.C87_one_resonance",
    "Verif.C87_closed_channel"
   ],
   "note": "C87_closed_channel shows that the restriction to energies at which the channels concerned are open is necessary. For the T-matrix no channel identifier contains an arrow (C12)."
  },
  {
   "property": "C88",
   "status": "partial",
   "theorems": [
    "Verif.C88_spin_group",
    "Verif.C88_legacy_group",
    "Verif.C88_returns",
    "Verif.C88_one_group",
    "Verif.C88_usable",
    "Verif.C88_session",
    "Verif.C88_system_partial",
    "Verif.C88_breitWigner_partial",
    "Verif.C88_unresolved_partial",
    "Verif.C88_map_changed"
   ],
   "note": "The map of the caller is not as before when a compound system of several spin groups throws (C88_map_changed); the partial theorems say what it contains."
  },
  {
   "property": "C89",
   "status": "proved",
   "theorems": [
    "Verif.BreitWigner.C89_spin_group",
    "Verif.BreitWigner.C89_system",
    "Verif.Endf.C89_range",
    "Verif.Endf.C89_range_data"
   ],
   "note": ""
  },
  {
   "property": "C90",
   "status": "proved",
   "theorems": [
    "Verif.C90_spin_group",
    "Verif.C90_system",
    "Verif.C90_t_matrix",
    "Verif.C90_t_matrix_system",
    "Verif.C90_accepted",
    "Verif.C90_channel"
   ],
   "note": "For the T-matrix, identifiers must not contain the arrow that joins two of them in a key."
  },
  {
   "property": "C91",
   "status": "proved",
   "theorems": [
    "Verif.Formats.C91_cross_sections",
    "Verif.Formats.C91_accepted"
   ],
   "note": "The restriction to targets without spin and to one fission channel is due to the code, which keeps only as many channels of a spin group as there are particle pairs (C30). If an l value has a radius of its own, it needs resonances for all its J, because of the other channels the code uses AP for (C69)."
  },
  {
   "property": "C92",
   "status": "proved",
   "theorems": [
    "Verif.C92_spin_group",
    "Verif.C92_system",
    "Verif.C92_tmatrix",
    "Verif.C92_construction",
    "Verif.C92_group_grid",
    "Verif.C92_system_grid",
    "Verif.BreitWigner.C92_resonance",
    "Verif.BreitWigner.C92_single_level",
    "Verif.BreitWigner.C92_multi_level",
    "Verif.BreitWigner.C92_level_grid",
    "Verif.BreitWigner.C92_levels_grid",
    "Verif.C92_levels",
    "Verif.C92_legacy_construction",
    "Verif.Unresolved.C92_unresolved_group",
    "Verif.Unresolved.C92_unresolved",
    "Verif.Unresolved.C92_table"
   ],
   "note": ""
  },
  {
   "property": "C93",
   "status": "proved",
   "theorems": [
    "Verif.Endf.C93_breit_wigner",
    "Verif.Endf.C93_breit_wigner_accepted",
    "Verif.Endf.C93_reich_moore",
    "Verif.Endf.C93_reich_moore_accepted",
    "Verif.Endf.C93_unresolved",
    "Verif.Endf.C93_unresolved_accepted",
    "Verif.Endf.C93_rmatrix",
    "Verif.Endf.C93_rmatrix_accepted",
    "Verif.Endf.C93_old_single",
    "Verif.Endf.C93_old_multi",
    "Verif.Endf.C93_old_accepted",
    "Verif.Endf.C93_old_reich_moore",
    "Verif.Endf.C93_old_reich_moore_accepted"
   ],
   "note": "For ranges of all formats. The condition of one mass is needed for Breit-Wigner ranges: the code takes the mass for the potential scattering from the first l value with resonances. The classes of data are those of C65, C67, C69 and C70."
  },
  {
   "property": "C94",
   "status": "proved",
   "theorems": [
    "Verif.Endf.C94_cross_sections",
    "Verif.Endf.C94_accepted",
    "Verif.Endf.C94_old",
    "Verif.Endf.C94_exchange",
    "Verif.Endf.C94_single"
   ],
   "note": "C94_exchange and C94_single are the two special cases of the statement. The conditions on widths and energies are those of C69 and C59."
  },
  {
   "property": "C95",
   "status": "proved",
   "theorems": [
    "Verif.Endf.C95",
    "Verif.Endf.C95_refused",
    "Verif.Endf.C95_split",
    "Verif.Endf.C95_constant",
    "Verif.Endf.C95_constant_accepted"
   ],
   "note": "For constant average parameters the class of data is that of C67 (one mass, a table of the library that interpolates linearly); their grid depends on the bounds and is described by C39."
  },
  {
   "property": "C96",
   "status": "proved",
   "theorems": [
    "Verif.Endf.C96_forms",
    "Verif.Endf.C96_converted",
    "Verif.Endf.C96_refined",
    "Verif.Endf.C96_accepted"
   ],
   "note": "The class of data is that of C67: one mass, ascending energies, an external library that interpolates linearly."
  },
  {
   "property": "C97",
   "status": "proved",
   "theorems": [
    "Verif.C97_spin_group",
    "Verif.C97_system",
    "Verif.C97_tMatrix",
    "Verif.C97_one_resonance"
   ],
   "note": "The signs of the amplitudes of a channel and the exchange of alike channels (C20) are special cases. C97_tMatrix excludes channel identifiers with an arrow, as C17 does, because the keys of the map are then ambiguous."
  },
  {
   "property": "C98",
   "status": "proved",
   "theorems": [
    "Verif.C98_values",
    "Verif.C98_integration",
    "Verif.C98_exists"
   ],
   "note": "The region below 2 eta + 1, where G grows, and the integration from the turning point for eta >= 15 are not part of the statement. C98_values is about omAsymptotic, which always returns values there; C98_integration and C98_exists are about the wave functions and assume that their call succeeds. The accuracy of the values at the start is the subject of C82 and C83. If G or its derivative vanishes exactly at the start, the code does not integrate at all, so that this case is excluded."
  },
  {
   "property": "C99",
   "status": "proved",
   "theorems": [
    "Verif.C99_series",
    "Verif.C99_integration",
    "Verif.C99_values",
    "Verif.C99_exists"
   ],
   "note": "C99_series and C99_integration are about the wave functions and assume that their call succeeds; C99_values is about omAsymptotic, which always returns. When the irregular function or its derivative is that small at the radius of the expansion, the value there could vanish exactly, in which case the code does not integrate; with nonzero values C98 applies."
  },
  {
   "property": "C100",
   "status": "proved",
   "theorems": [
    "Verif.Unresolved.C100_elastic",
    "Verif.Unresolved.C100_elastic_upper",
    "Verif.Unresolved.C100_capture_lower",
    "Verif.Unresolved.C100_capture_upper",
    "Verif.Unresolved.C100_fission_lower",
    "Verif.Unresolved.C100_fission_upper",
    "Verif.Unresolved.C100_competition_lower",
    "Verif.Unresolved.C100_competition_upper",
    "Verif.Unresolved.C100_capture_may_rise",
    "Verif.Unresolved.C100_cross_sections"
   ],
   "note": "The bounds on the integrals assume that the integrals exist, which they do by C37_exists if the elastic or the capture width is positive. C100_cross_sections assumes a neutron channel, a radius and average parameters that are not negative; the bounds are written as products so that they also hold when a width vanishes. The upper bounds hold with the remaining widths left out of T; C100_capture_may_rise shows that they cannot be put in for capture."
  },
  {
   "property": "C101",
   "status": "proved",
   "theorems": [
    "Verif.BreitWigner.C101_single_level_optical",
    "Verif.BreitWigner.C101_reactions_upper",
    "Verif.BreitWigner.C101_one_resonance_unitary",
    "Verif.BreitWigner.C101_one_resonance",
    "Verif.BreitWigner.C101_multi_level_elastic_upper",
    "Verif.BreitWigner.C101_reactions_attained",
    "Verif.BreitWigner.C101_multi_level_elastic_attained",
    "Verif.BreitWigner.C101_two_resonances_exceed"
   ],
   "note": "The limits that groups with several resonances exceed are a limitation of the formalisms; the code follows them (C57)."
  },
  {
   "property": "C102",
   "status": "proved",
   "theorems": [
    "Verif.BreitWigner.C102_evaluated",
    "Verif.BreitWigner.C102_reactions",
    "Verif.BreitWigner.C102_single_level",
    "Verif.BreitWigner.C102_multi_level",
    "Verif.BreitWigner.C102_two_resonances",
    "Verif.BreitWigner.C102_constructive",
    "Verif.BreitWigner.C102_no_neutron_width",
    "Verif.BreitWigner.C102_distant_elastic",
    "Verif.BreitWigner.C102_distant_reactions",
    "Verif.BreitWigner.C102_interference"
   ],
   "note": "The hard-sphere term is not part of what a group adds; it is added once for each orbital momentum (C54). The division is of one spin group; groups of different total angular momentum never interfere (C32, C57)."
  },
  {
   "property": "C103",
   "status": "proved",
   "theorems": [
    "Verif.C103_penetrability_energy",
    "Verif.C103_shift_energy",
    "Verif.C103_penetrability_barrier",
    "Verif.C103_shift_barrier",
    "Verif.C103_far_above"
   ],
   "note": "Below the threshold the code uses the wave number of the magnitude of the energy, so that the functions are not monotone there; the channel is then treated as closed (C18)."
  },
  {
   "property": "C104",
   "status": "proved",
   "theorems": [
    "Verif.C104_spin_group",
    "Verif.C104_system",
    "Verif.C104_system_other",
    "Verif.C104_t_matrix",
    "Verif.Endf.C104_reich_moore",
    "Verif.Endf.C104_breit_wigner",
    "Verif.Endf.C104_unresolved",
    "Verif.Old.C104_old_breit_wigner",
    "Verif.Old.ReichMoore.C104_old_reich_moore",
    "Verif.Endf.C104_rmatrix_limited"
   ],
   "note": "R-matrix-limited ranges under the conditions of C70_partial. The older multi-level code is within 4e-15 for each l value in units of pi/k^2, as in C58."
  },
  {
   "property": "C105",
   "status": "proved",
   "theorems": [
    "Verif.C105_turning_point"
   ],
   "note": "The regular function of the statement is the published expansion, not the regular function that the library returns, which has the Wronskian one by construction (C61)."
  },
  {
   "property": "C106",
   "status": "proved",
   "theorems": [
    "Verif.C106_spin_group",
    "Verif.C106_explicit",
    "Verif.C106_t_matrix",
    "Verif.C106_system"
   ],
   "note": "The eliminated reactions must differ from those of the kept channels; they may have several channels and may be the capture reaction itself."
  },
  {
   "property": "C107",
   "status": "proved",
   "theorems": [
    "Verif.BreitWigner.C107_area",
    "Verif.Unresolved.C107_average"
   ],
   "note": "The position of a resonance is its energy after the level shift. The tolerance in elastic scattering comes from the decimals of the quadrature, whose means are not exactly one (C55)."
  },
  {
   "property": "C108",
   "status": "proved",
   "theorems": [
    "Verif.C108_channel",
    "Verif.C108_s_wave"
   ],
   "note": "Exactly at the energy of a resonance without eliminated width the code divides by zero (C19), so that the energies lie strictly between."
  },
  {
   "property": "C109",
   "status": "proved",
   "theorems": [
    "Verif.Endf.C109_cross_sections"
   ],
   "note": "For p waves and above the formats differ: only the Breit-Wigner formulas shift the resonances."
  },
  {
   "property": "C110",
   "status": "proved",
   "theorems": [
    "Verif.C110_cross_sections",
    "Verif.C110_t_matrix"
   ],
   "note": ""
  },
  {
   "property": "C111",
   "status": "proved",
   "theorems": [
    "Verif.C111_spin_group",
    "Verif.C111_t_matrix",
    "Verif.C111_t_matrix_system",
    "Verif.C111_system",
    "Verif.C111_reconstructor",
    "Verif.Endf.C111_reich_moore"
   ],
   "note": "With two resonances without capture width at the same energy in one group the level matrix may be singular; that case is left out."
  },
  {
   "property": "C112",
   "status": "proved",
   "theorems": [
    "Verif.Unresolved.C112_capture",
    "Verif.Unresolved.C112_fission",
    "Verif.Unresolved.C112_competition",
    "Verif.Unresolved.C112_elastic",
    "Verif.Unresolved.C112_spin_group",
    "Verif.Unresolved.C112_system",
    "Verif.Endf.C112_range",
    "Verif.Endf.C112_range_accepted"
   ],
   "note": "A width must not change between zero and positive: there the integrals jump (C72_width_jump)."
  },
  {
   "property": "C113",
   "status": "proved",
   "theorems": [
    "Verif.C113_spin_group",
    "Verif.C113_accepted",
    "Verif.C113_system",
    "Verif.C113_split",
    "Verif.C113_rotated",
    "Verif.Old.ReichMoore.C113_old"
   ],
   "note": "This is about resonance tables. A table that is assembled from channel data keeps one resonance per energy only (C27_disproved), so that resonances of one channel at the same energy cannot be given in this way or in ENDF ranges."
  },
  {
   "property": "C114",
   "status": "proved",
   "theorems": [
    "Verif.Unresolved.C114_spin_group",
    "Verif.Unresolved.C114_system",
    "Verif.Endf.C114_range",
    "Verif.Endf.C114_range_accepted"
   ],
   "note": "For groups and systems the factor may depend on the energy and is any number but zero; the maps of results are the same. For ranges the factor is the same in all rows of a table, because the parameters are interpolated."
  },
  {
   "property": "C115",
   "status": "proved",
   "theorems": [
    "Verif.C115_spin_group",
    "Verif.C115_system",
    "Verif.Endf.C115_rmatrix_limited",
    "Verif.Endf.C115_reich_moore",
    "Verif.Endf.C115_old_reich_moore"
   ],
   "note": "For spin factors that are not negative; for groups and systems all incident channels have the same reaction identifier (for R-matrix-limited ranges this is proved). The inequality is for the sum of any set of reactions."
  }
 ]
}