# Formal model of resonanceReconstruction in Lean 4

What is modelled, how each property of `properties.jsonl` is stated and proved, where the code disagrees with
a property, and what has to be trusted.

## Layout

* `lean/Verif/Model/*.lean`  - the model, function by function; each definition cites file and lines in `/repo`.
* `lean/Verif/Spec/*.lean`   - small independent specifications used in statements.
* `lean/Verif/Lemmas/*.lean` - helper lemmas.
* `lean/Verif/Props/*.lean`  - the property theorems, with an example beside each that meets its hypotheses.
* `seeded/LOG.jsonl`         - deliberately wrong models, and the theorems that rejected them.
* `MANIFEST.json`            - property, status and theorem names.

Paths in comments of the model are relative to `/repo/src/resonanceReconstruction`.

## Trusted base

* The Lean 4 kernel (4.33.0). No `sorry`, no `native_decide`, no `bv_decide`, no added axioms.
* Axioms: every theorem in `MANIFEST.json` depends on `propext`, `Classical.choice` and `Quot.sound` and on nothing
  else (`#print axioms`), except `Verif.Old.C50_pack` and `Verif.Old.C50_accumulate` (`propext`, `Quot.sound`) and
  `Verif.C50_data` and `Verif.C50_data_accumulate` (`propext`), which depend on less.
* The faithfulness of the model to the C++ text, which was written by hand. Nothing was compiled or run.
* The idealisations below.

## Modelling decisions

* Floating point numbers are real or complex numbers: rounding and overflow are not modelled. Spins and J are
  rational numbers; integers and half-integers are exact in binary64, so that nothing is lost there.
* An outcome is a value or a failure (`Outcome`, `Failure` in `Model/Basic.lean`):
  * `throws` - a C++ exception;
  * `undefined` - undefined behaviour: `front()` of an empty vector, reading past the end, an uninitialised member,
    flowing off the end of a non-void function;
  * `notFinite` - the C++ program goes on with an infinity or NaN (division by zero, square root of a negative
    number, the inverse of a singular matrix). Theorems of the form "whenever evaluation returns a value" do not speak
    about these cases, and separate theorems (`..._exists`, `..._accepted`, `C19_...`) say when they cannot occur.
* Loops whose termination is not obvious are step functions with a bound on the steps, and a theorem says that enough
  steps are always found (C39) or the bound is that of the code.
* Members that evaluation updates (caches) are explicit state with arbitrary initial contents.
* `std::map` is a function from keys to optional values. The order of iteration is not observable.
* `std::sort` with a comparator that is not a total order is any function that returns a sorted permutation
  (`Sorting`).
* Strings are lists of characters. Channel identifiers, which this repository builds, are modelled character by
  character.
* Quantities carry units in the C++ code (`dimwits`); the model assumes consistent units and leaves numbers as they are.

### What stands for other libraries

* `ENDFtk` records are structures of the values that their accessors return. Parsing is not modelled.
* `elementary` identifiers are strings; `ReactionLibrary` (what a pair and an MT number become) is an arbitrary function.
* `interpolation` tables are arbitrary functions (`InterpolationLibrary`, `Unresolved.Interpolation`). Most theorems hold
  whatever they do. C67 needs a contract, which is written down in `Spec/UnresolvedRange.lean`: `Conforms` (a value
  is interpolated between neighbouring points by the law of the table), `Makes` (a table can be made from ascending
  abscissae and then has a value from the first to the last). `UnresolvedExample.library` meets it.
* Eigen matrices are Mathlib matrices `Matrix (Fin n) (Fin n) ℂ`; `inverse()` is the matrix inverse, with the
  determinant condition explicit.
* range-v3 views and actions are list functions.
* The Coulomb wave functions (`coh3-*.hpp`, which are part of the repository) are modelled in `Model/Coulomb.lean`. Elsewhere they
  are an arbitrary `CoulombLibrary`, so that the other theorems hold for whatever values they return.

## What is modelled

* `Model/QuantumNumbers` - spins, total angular momenta, enumeration and lookup of quantum numbers, identifiers.
* `Model/HardSphere` - penetrabilities, shift factors, phase shifts (`rmatrix/src/calculate*.hpp`) and the older ones
  (`src/penetrationShift.hpp`, `src/phaseShift.hpp`).
* `Model/Coulomb` - `coh3-coulomb.hpp`, `coh3-extwave.hpp`, `coh3-asympt.hpp`.
* `Model/Channel` - particles, pairs, channels, radii.
* `Model/SpinGroup` - R-matrix spin groups: construction, L matrix for both boundary options, evaluation of cross
  sections and T-matrix, grid, caches.
* `Model/CompoundSystem` - channel data, tables of resonances, consolidation, compound systems.
* `Model/Legacy` - Breit-Wigner groups, single- and multi-level, and compound systems with potential scattering.
* `Model/Unresolved` - fluctuation integrals, tables, groups, energy grid.
* `Model/Endf` - everything from ENDF records to reconstructors, `fromENDF` included.
* `Model/Reconstructor` - reconstructors.
* `Model/Run` - the evaluations again, in the order of the code with its lazy ranges, with the state that an exception
  leaves behind. Exceptions for lack of memory are not modelled.
* `Model/OldBreitWigner`, `Model/OldReichMoore` - the older code: `Apply`, systems, l values, cross sections, `pack`.

## What is not modelled

* The files that only include others (`breitWigner.hpp`, `rmatrix/legacy.hpp`, ...), accessors that only return a member
  and constructors that only store their arguments.
* `breitWigner/CRTP*` and `isTemperature` (never instantiated), `SpinGroup/src/switchIncidentPair.hpp` and
  `CompoundSystem/src/switchIncidentPair.hpp` (commented out), `omExternalClosed` and `omAsymptoticClosed` (never called).
* Log messages, copies and moves. `SpinGroupBase` reads its constructor argument `incident` after moving from it; the
  model takes the value before the move.
* Rounding: in particular the purpose of the branches that avoid cancellation.

## The properties

For each property: what is modelled and how it is proved. The theorems of each property are listed in
`MANIFEST.json`; names ending in `_partial` prove part of a claim, names ending in `_disproved` are counterexamples.

* **C01** (proved) Particle and particle-pair kinematics are well posed. Constructors return an outcome; acceptance iff, and inequalities by field arithmetic.
* **C02** (proved) Statistical spin factors exhaust each partial wave. Sum over the modelled enumeration; induction on the two coupling ranges.
* **C03** (proved) Channel spins and total angular momenta obey the triangle rule exactly. The loops are lists over ℚ; membership, order and no repetition by induction on the length of the range.
* **C04** (partial) Total angular momenta of a full (l, i, I) coupling. False for projectile spins above 1/2: the exact extent of the claim and a counterexample are proved.
* **C05** (proved) Quantum-number enumeration is complete and free of repetition. Membership in the nested loops, for every target spin and number of l values.
* **C06** (proved) Assigning channel spins to resonances never reuses or invents a channel. The lookup is a state transformer on the list of available sets; permutation invariant by induction over the sequence of lookups.
* **C07** (proved) Channel identifiers separate channels. Identifiers are modelled character by character; injectivity by parsing from the right. Negative half-integers collide (`C07_negative_values_collide`), which no channel has.
* **C08** (proved) T-matrix entries never overwrite each other. String argument on the separator `->`.
* **C09** (proved) Penetrabilities and shift factors are those of a hard sphere. The coded rational functions for l ≤ 4 against the recursion, monotonicity by cross multiplication; `C09_outgoing_wave` ties them to the outgoing spherical wave.
* **C10** (proved) Orbital momenta above four are rejected, never silently approximated. Case analysis on l.
* **C11** (proved) Hard-sphere phase shifts are consistent with penetrability and shift. Complex exponentials of the coded arctangents; the pole of the arctangent argument is treated explicitly.
* **C12** (partial) Coulomb phase shift difference is the documented sum of arctangents. False: the code sums 1/tan(eta/n). Counterexample, and the parts that hold (l = 0, neutral channels). For channels the value the code does give is proved for all l.
* **C13** (proved) The old and the new hard-sphere functions agree. Both transcriptions are compared for every positive ratio.
* **C14** (proved) Capture cross section of an R-matrix spin group is never negative. Complex matrices of any size; dissipativity of R: Im ⟨u, R_L u⟩ ≥ |√P R_L u|².
* **C15** (proved) Without eliminated capture widths nothing is lost. Equality case of C14.
* **C16** (proved) Optical theorem: partial cross sections sum to the total. Algebra on sums of squared moduli. For ranges and the older code the same algebra on the formulas of C69 and C59. R-matrix-limited ranges: every channel belongs to one pair of the evaluation, so the sum over the pairs is the sum over the channels; no pair has the identifier of capture.
* **C17** (proved) Reciprocity: the T-matrix and the collision matrix are symmetric. Transpose of R(1 - LR)⁻¹.
* **C18** (proved) Closed channels are not populated. Zero rows and columns propagate through the inverse; the result is that of the group without the widths.
* **C19** (proved) The level-matrix inversion is well posed. Kernel argument with the imaginary part of the quadratic form; the inverse of a singular matrix is the outcome `notFinite`.
* **C20** (proved) Cross sections do not depend on arbitrary sign conventions or input order. Conjugation by a diagonal sign matrix or a permutation matrix. For the T-matrix the same lemmas, element by element.
* **C21** (proved) All partial cross sections are non-negative. From C14 and squared moduli.
* **C22** (proved) Evaluation accumulates: contributions add and earlier entries survive. Fold over maps as functions; addition for cross sections and overwriting for T-matrix elements.
* **C23** (proved) Evaluation results are independent of the call history. Caches are explicit state with arbitrary initial contents; simulation against the stateless function, then induction over any sequence of calls.
* **C24** (partial) A spin group is accepted exactly when it is consistent. Acceptance iff; an empty list of channels is `undefined` (counterexample).
* **C25** (proved) A compound system groups channel data by J and parity without loss. Sort, unique and filter; partition theorem.
* **C26** (proved) Resonance tables built from channel data are faithful. Loop of map insertions; characterised by the last write.
* **C27** (partial) No resonance width is lost when tables are assembled. False for repeated energies, proved for distinct energies.
* **C28** (proved) Consolidation leaves one eliminated channel per J-parity and keeps all data. Invariant of the consolidation loop.
* **C29** (proved) Every elastic channel of a Reich-Moore range appears exactly once. Invariant on the pair (created channels, remaining quantum numbers).
* **C30** (partial) R-matrix-limited channels keep their reaction and none is dropped. False: reaction types are taken by position in the list of pairs, and channels beyond the number of pairs are dropped. Proved for numbering by position.
* **C31** (partial) Radius selection follows the NRO/NAPS decision table. Decision table against the code of both generations. In the older code some combinations flow off the end of a non-void function.
* **C32** (proved) MLBW elastic scattering is a squared amplitude. The double sum is a squared modulus, by induction on the resonances; then summed over groups.
* **C33** (proved) Breit-Wigner capture and fission are non-negative; single-level elastic need not be. Signs of each term, and a negative single-level elastic cross section.
* **C34** (proved) With one resonance SLBW and MLBW coincide. The interference sum is empty.
* **C35** (proved) Legacy compound systems accept exactly non-empty lists with distinct (l,J). Acceptance iff; greatest l as a maximum; the potential term for every l up to it.
* **C36** (partial) Legacy resonance accessors are defined. The member that is never initialised is `undefined`; every other accessor is right.
* **C37** (proved) Fluctuation integrals satisfy the width sum rule. Finite sums over the quadrature, symbolic in the widths; all four branches of the code against one formula.
* **C38** (partial) Degrees of freedom accepted by the table never index outside the quadrature. False for zero elastic degrees of freedom; `C38_exactly` says exactly when the tables are left.
* **C39** (proved) The unresolved energy grid is finite, ordered, complete and fine enough. The loop is a step function; termination by a measure, invariants by induction over the steps.
* **C40** (proved) Resolved grids are sorted, duplicate-free and cover every positive resonance. Sort and unique; membership.
* **C41** (proved) A reconstructor only answers inside its energy range. Interval filter, for all kinds of systems.
* **C42** (proved) Conversion from ENDF widths to reduced widths is invertible and sign preserving. Square roots with signs, for the whole conversion of Reich-Moore and R-matrix-limited ranges.
* **C43** (proved) The precomputed repeated-J factors of the old MLBW code are right. Closed form of the sum; the tabulated decimals by exact rational arithmetic; beyond the tables the outcome is `undefined`.
* **C44** (proved) Old MLBW elastic scattering is non-negative and equal to the legacy MLBW one. Completing the square; comparison with C32.
* **C45** (proved) Old Reich-Moore capture is non-negative and the scalar shortcut is exact. Dissipativity for 3x3 matrices with Re K ≥ 0.
* **C46** (partial) The low-phase expansion of the old Reich-Moore code is used where intended. False: the real part of 1 + K is at least 1, so the branch is dead.
* **C47** (proved) ENDF ranges are dispatched to exactly one formalism. Decision function; `C47_unsupported` lists every failure.
* **C48** (partial) Particle pairs for incident and capture reactions must exist. False: reading past the end; `undefined` in the model.
* **C49** (proved) Unresolved cross sections are consistent. From C37.
* **C50** (proved) Result arithmetic is componentwise. Componentwise algebra, folds over any list.
* **C51** (partial) Charged-particle phase shift is the phase of G + iF. False where F < 0 and G ≠ 0: the code uses acos. `C51_exact_extent` says where it holds.
* **C52** (partial) A free incident channel does not scatter. False for charged channels with l ≥ 1; `C52_exact_extent` says where it holds.
* **C53** (proved) Evaluation returns the documented Reich-Moore R-matrix cross sections. The whole evaluation against the closed formula.
* **C54** (partial) Elastic scattering stays non-negative for radii that depend on l. False: potential scattering uses the radius of the first group for all l.
* **C55** (proved) The quadrature represents chi-squared distributions. Exact rational arithmetic on the tabulated decimals (40 numbers each, all of the table).
* **C56** (proved) Fluctuation integrals do not depend on the unit of energy. Homogeneity of each term.
* **C57** (proved) Breit-Wigner cross sections have the values of the documented formula. The whole evaluation of a group made from resonance parameters against the closed formula.
* **C58** (proved) The older Breit-Wigner systems have the cross sections of the ENDF formulas. Whole systems of the older code, from the range to the cross sections.
* **C59** (proved) The older Reich-Moore code gives the cross sections of the ENDF formula. Whole systems of the older Reich-Moore code; 3x3 matrices by the adjugate.
* **C60** (proved) The older Reich-Moore cross sections are not negative. From C45 and a matching argument on the quantum numbers of the J values.
* **C61** (partial) The penetrability of an open charged-particle channel is positive. The recurrences preserve the Wronskian; positivity is false where the code reports zeros.
* **C62** (partial) Any orbital angular momentum is safe in a charged-particle channel. Array bounds as `undefined`; false from l = 60 on.
* **C63** (partial) The returned derivative of G is the derivative of G. False in a window of channel ratios where the integration makes no step; consistency at l = 0 carries over to every l.
* **C64** (proved) Coulomb wave functions of neighbouring angular momenta fit together. Induction over l upwards (G) and downwards (F).
* **C65** (proved) A Breit-Wigner range of an ENDF evaluation gives the cross sections of the ENDF manual. From the range to the cross sections: conversion, groups, evaluation and potential scattering, against the formulas of the ENDF manual, Appendix D.
* **C67** (proved) An unresolved range of an ENDF evaluation gives the average cross sections of the ENDF manual. From the range to the cross sections, for the three forms of unresolved parameters; the interpolation library enters by a contract.
* **C69** (partial) A Reich-Moore range of an ENDF evaluation gives the cross sections of the ENDF manual. From the range to the cross sections: the R-matrix of a spin group is block diagonal with one block for each l, channel spin and J, so is every matrix made from it, and each block is that of the formula. Elastic scattering is false for an l value with a radius APL of its own and channels without resonances.
* **C66** (proved) The older and the newer code agree. Both are equal to the same formula: C58 and C59 for the older code, C65 and C69 for the newer one; the partial waves in the formulas are determined by the radii.
* **C70** (partial) An R-matrix-limited range of an ENDF evaluation gives the cross sections of the ENDF manual. From the range to the cross sections: each spin group of the compound system is that of one record without the channels that have no widths, which change none of the sums; then C22 and C17. Disproved by a p-wave resonance and flags SHF of 0 and 1.
* **C71** (partial) Below its threshold a competitive reaction has no effect. The two ranges are compared through C65 and C58: a larger total width makes every term of the capture sum smaller. Disproved by an s-wave resonance with a threshold of 110 eV at 3 eV, for the older code by one with a threshold of 1010 eV at 20 eV.
* **C72** (proved) Cross sections are continuous functions of the energy. P, S and the phase factors of the channels are continuous; a channel that opens has P = 0 and S = B at its threshold, where leaving it out of the R-matrix and keeping it give the same matrices; the inverse of a matrix is continuous where the determinant is not zero. Disproved at thresholds by a photon channel and by a neutron channel with another boundary condition, with C73. In Breit-Wigner and unresolved ranges each group adds continuous functions to a fixed set of reactions; linear interpolation is Lipschitz continuous; the averages over the fluctuating widths use the same quadratures as long as no width begins or ceases to vanish. There they jump, because the weights of the quadrature do not add up to exactly one. T-matrix: the continuity of its elements, element by element, then by induction over the spin groups.
* **C73** (proved) A single resonance has the cross sections of the single-level Breit-Wigner formula. The R-matrix has rank one, so that the level matrix is known in closed form.
* **C74** (proved) Cross sections respect the limits of unitarity. Each row of the collision matrix has norm at most one (C14), so the real part of its diagonal element is at least -1 (C16) and what leaves the channel is at most one. For ranges with C69; the statistical factors of the channels of one l add up to 2l+1. For R-matrix-limited ranges every channel of the system is traced to its row of the evaluation (C25, C28, C48), so the incident channels are those rows that name the pair with MT = 2; they have one wave number, and the factor g of their group. For the older code likewise with C59.
* **C75** (partial) There are cross sections at every point of a reconstructor's grid. Where the channel functions have values, evaluation fails exactly at the energies of resonances without eliminated width (C19 and its converse). The grid has these energies (C40). For ranges with the theorems on acceptance (C65, C67, C69, C70) and C41.
* **C76** (proved) Slow neutrons: reactions follow the 1/v law and elastic scattering becomes constant. Close to zero energy the R-matrix is that at zero (C72), the penetrability of an incident channel is its channel ratio for l = 0 and smaller than any multiple of it otherwise, and so is the sine of the phase shift (derivatives at zero of the hard-sphere functions). The collision matrix divided by the square root of the energy then has a limit, and the factor pi/k^2 is inversely proportional to the energy. The limits add up over spin groups. For R-matrix-limited ranges the channels are traced back to their rows, and the level matrix has an inverse because its channels are closed, open or have S - B = 0.
* **C77** (proved) Channels and resonances that take no part may be left out. Rows and columns of the R-matrix that belong to channels without amplitudes are zero, so that 1 - R L is block diagonal with a unit block, and so is its inverse; the collision matrix has no elements between these channels and the others. By induction over the spin groups for systems. A resonance without amplitudes adds zero to the R-matrix. For Breit-Wigner ranges: the formula of C65 has no terms of resonances without neutron width; those of a spin that only they have give the potential scattering, which is counted for each spin anyway. For Reich-Moore ranges and the older code likewise, from the formulas of C69, C58 and C59. R-matrix-limited ranges: from C70, whose R-matrix has no terms of these resonances.
* **C78** (proved) A spin group of independent parts has the sum of their cross sections. Ordered by parts, the R-matrix is block diagonal, and so are 1 - R L and its inverse; the sums over channels in the cross sections are sums over the parts. The converse direction because a block diagonal matrix is invertible if and only if its blocks are. T-matrix: the inverse of a block diagonal matrix, element by element.
* **C79** (proved) The two kinds of boundary conditions agree where they give the same numbers. 1 - R L has equal columns for both kinds: for open channels L is the same, for closed channels the column of R is zero. T-matrix: the same equality of 1 - R L, element by element, then by induction over the spin groups.
* **C80** (proved) Cross sections are continuous functions of the resonance parameters. The R-matrix is a continuous function of the parameters where no denominator vanishes; invertibility of 1 - R L is an open condition and the inverse is continuous there; cross sections are polynomials in the elements of the T-matrix and their conjugates. For systems by induction with half of the tolerance for the first spin group. Breit-Wigner groups: the contributions of C57 are continuous in the parameters along the filter of nearby lists of resonances. Unresolved: the fluctuation integrals are finite sums of quotients of polynomials in the average widths. T-matrix: the same continuity of the inverse, element by element, with the start of the map carried along the spin groups.
* **C81** (proved) Wigner's threshold law: a reaction that emits neutrons with angular momentum l grows with the power l + 1/2 of the energy above its threshold. Just above the threshold the R-matrix is the one in which the opening channels take part, so that (1 - R L)^-1 R is continuous from above; the penetrability of an opening channel is the power 2l+1 of the channel ratio times a continuous function, and the channel ratio is proportional to the square root of the energy above the threshold. For systems by induction; positivity with the formula for a single resonance. For R-matrix-limited ranges the channels of the reaction are those of the rows with its pair.
* **C82** (partial) The expansions of the irregular Coulomb function satisfy the Coulomb wave equation. The exponents are differentiated exactly; the wave equation then leaves a polynomial in the expansion parameter and t = rho/(2 eta), of order five at least, whose coefficients are bounded term by term in the region. The counterexample has a rational square root; there the phase is enclosed with bounds of log 2 and pi, and success of the recurrence is checked in whole numbers.
* **C83** (proved) In weak Coulomb fields the irregular function satisfies the Coulomb wave equation. The loop is shown to compute the partial sums of the formal solution up to its smallest term, whose size is bounded for all arguments of the region; the partial sums satisfy the wave equation up to a multiple of the next term, and their Wronskian is close to one, so that G and G' are not both small.
* **C84** (proved) At large distances the irregular Coulomb function is the cosine of the Coulomb phase. Both ways to start have limits: partial sums of the series in 1/rho, and the expansion in 1/(2 eta) at x = 2 eta/rho -> 0, where the logarithms combine to eta log 2 rho. The constant phases are compared with the argument of the gamma function: Stirling's series at z is shown to differ from it by a telescoping sum, which is bounded, and the limit of the product formula gives the gamma function. The recurrence over l turns the phase by the argument of l + i eta - pi/2 up to terms in 1/rho.
* **C85** (partial) Charged-particle channels without Coulomb field have the penetrabilities and shift factors of neutron channels. The regular function that the code returns is the true one less a multiple of the irregular one, the quotient of both at the order where the downward recurrence starts. Without field the true one is Poisson's integral, hence bounded in l, hence decreasing beyond rho; the sum of the squares of both functions is a polynomial in 1/rho^2 with coefficients that are not negative, which bounds both functions at the order rho and says where the upward recurrence stops; the resulting bound of the quotient is evaluated in rational numbers for 48 intervals of rho. For the failure the limits of C84 are taken along channel ratios of a suitable phase.
* **C86** (proved) Distant and weak resonances have little effect. The entries of the R-matrix change by at most the total strength; a filter of lists of resonances with total strength tending to zero is used with the continuity of the matrix inverse and of the cross section formulas, as for C80. T-matrix: as for C80, with the total strength as the small parameter.
* **C87** (proved) The choice of boundary conditions does not matter. With D the diagonal matrix of e - E - i gamma_gamma^2, R = gamma^T D^-1 gamma and R' = R + R (B' - B) R', hence (1 - R' L')^-1 R' = (1 - R L)^-1 R. That the parameters exist is the spectral theorem for real symmetric matrices. Closed channels, which the code leaves out, must keep their boundary conditions; that this is necessary is shown with an example. The T-matrix is compared element by element with the same lemma.
* **C88** (partial) An evaluation that throws does no harm. Model/Run follows the code in its own order, with the elements of lazily evaluated ranges calculated when they are read, and keeps the state when it stops. The sum for the eliminated capture reads every element that the loop over the reactions reads later, so that this loop cannot fail; a call returns exactly when the eager model does, with the same map. With C23 and C41 the state that is left behind does not matter. The failure is a system of two accepted spin groups of which the second has l = 5.
* **C89** (proved) Slow neutrons in Breit-Wigner ranges: the 1/v law and a constant elastic cross section. The penetrability and the exponential of the phase shift are differentiable in the channel ratio at zero, which gives their limits divided by the square root of the energy; sums over resonances and groups follow. For ranges the limits are taken in the formula of C65, whose parameters do not depend on the energy; positive capture widths exclude poles. C89_range_data says that the data in the statement exist.
* **C90** (proved) Detailed balance: cross sections of a reaction and its inverse. All functions of a channel depend on the energy only through m E + q, which is the same in both descriptions, and the factor m_a/m_b of the squared amplitudes cancels in the R-matrix. The collision matrix is therefore the same and symmetric; the factors pi/k^2 g of the two incident pairs give the relation. In a compound system the groups without channels of b contribute nothing to the reaction. T-matrix: the same equality of the matrices, element by element.
* **C91** (proved) The same evaluation in the Reich-Moore and in the R-matrix-limited format gives the same cross sections. Both ranges have the formulas of C69 and C70. With R the R-matrix of the R-matrix-limited format and D the square roots of the penetrabilities, the matrix K of the Reich-Moore formula is i D R D with its rows and columns in another order, and (1 - K)^-1 = 1 + i T. The spin groups without resonances give the hard-sphere scattering that the other formula has as a remainder of the statistical factors.
* **C92** (proved) Cross sections do not depend on the system of units. The wave number is divided by the factor of the length, so that channel ratios and Sommerfeld parameters, and with them all channel functions, have no units. The factor of the energy cancels in the R-matrix and in the Breit-Wigner and fluctuation terms; the factor pi/k^2 gives the area. For the Breit-Wigner and unresolved classes the results are shown equal as outcomes, including failures and state. The energy grid of unresolved resonances is left out: the points that the code inserts are round numbers of electron volts by design.
* **C93** (proved) The order in which an evaluation lists its data does not matter. The cross sections are those of the formulas of C65, C67, C69 and C70. The formulas are sums over l values, J values, spin groups and resonances, which are carried over to the other order along the permutation, and the quantities in them (penetrabilities, shift factors, phases up to multiples of pi, reduced widths up to the sign of a square root, interpolated averages) are determined by the data, so that two sets of cross sections that satisfy the formulas are equal. The conditions of the acceptance theorems do not depend on the order.
* **C94** (proved) The directions of the two fission channels do not matter. The cross sections are those of the formulas of C69 and C59. In these, turning the fission vectors turns the matrices from both sides, by an orthogonal matrix with ones for the other channels. The inverse is turned in the same way, the element of the collision matrix for elastic scattering stays and the two elements for fission are turned as a vector, so that the sum of their squares stays.
* **C95** (proved) The bounds of a range only decide where it answers. The compound system that fromENDF builds does not depend on the bounds, except for constant average parameters; operator() and grid() of the reconstructor only compare with the bounds. For constant average parameters the formula of C67 is used: constant values are interpolated to themselves.
* **C96** (proved) The form in which average parameters are given does not matter. The cross sections are those of the formula of C67, in which the tables only enter through the interpolated parameters. The forms give the same tables. Between two neighbouring rows of a finer table there is no row of the coarser one, so that both are on one line segment of it, and linear interpolation on a line segment gives the segment.
* **C97** (proved) How the spins are coupled does not matter. The channel functions of indistinguishable channels are the same, so that the diagonal matrices of penetrabilities, logarithmic derivatives and phases commute with the orthogonal matrix. The R-matrix, the T-matrix and the collision matrix are therefore turned from both sides, and sums of squared absolute values over rows of incident channels and columns of the channels of one reaction do not change. For one resonance a reflection within each class of channels turns one vector of amplitudes into any other of the same length.
* **C98** (proved) The numerical integration of the irregular Coulomb function is accurate outside of the turning point. A step that converges is the trapezoidal rule for a shifted value and the derivative, up to the tolerance of the iteration. The exact solution satisfies the same equations up to the error of the trapezoidal rule, which the energy of the solution bounds (it decreases inward). A weighted norm of the error grows by a factor of at most 1 + 0.21 h^2 per step, with a discrete energy identity, so that errors add up over a length of at most 14. The exact solution is constructed in polar coordinates with the theorem of Picard and Lindelöf.
* **C99** (proved) In weak Coulomb fields the irregular function is that of Coulomb wave theory. The series of the code, with any fixed number of terms, satisfies the wave equation up to the first neglected term. The amplitude of the difference from the irregular function grows inward at most by the integral of this remainder, and far from the origin it is the error of the phase, which C84 bounds with the series of Stirling. The integral is twice the first neglected term. For smaller channel ratios C98 is combined with the fact that the amplitude of the difference of two solutions does not grow inward. Existence: the solutions through the values of the leading term at a point converge when the point moves outward, uniformly with their derivatives.
* **C100** (proved) Width fluctuations enhance elastic scattering and reduce reactions. The lower bounds follow from the inequality of Cauchy and Schwarz for the averages of C37, with the moments of the quadrature columns of C55. The upper bounds follow from inequalities that hold at each point of the quadrature, x (Gn + Gg)^2 <= (x Gn + Gg)(Gn + x Gg) and its counterpart with three widths. A concrete set of widths shows that capture may rise when there is fission.
* **C101** (proved) The optical theorem and the limits of unitarity in Breit-Wigner ranges. The terms of the formula (C57) of one resonance are -2 times the real part of its term in U, so the optical theorem is linear in the resonances. Capture and fission of one resonance are at most 4 Gn(G - Gn)/G^2 <= 1, its term in U is at most 2 in magnitude. Equal resonances at the energy attain both.
* **C102** (proved) Contributions of Breit-Wigner resonances add, except for the interference between levels. The single-level terms (C57) are sums over the resonances; |1 - U|^2 - 4 sin^2(phi) is |X|^2 plus terms linear in the sum X over the resonances, so that only |X1 + X2|^2 is not additive. The bounds on distant resonances follow from |Gn/(d - iG/2)| <= Gn/|d| and 2 for each of the others.
* **C103** (proved) The centrifugal barrier. The closed forms of the hard-sphere functions for l = 0..4 (C09) are quotients of polynomials in rho^2 with positive coefficients, which are compared by cross-multiplication; the wave number increases with the energy above the threshold.
* **C104** (proved) Without neutron widths there is only potential scattering. The rows of the R-matrix that belong to incident channels vanish, so those of (1 - RL)^-1 R do, and the collision matrix is diagonal there. For ranges from C69 and C65: the statistical factors of the J with and without resonances of an l add up to 2l+1. Older code: by the formulas of C58 and C59, in which a vanishing neutron width removes the resonance terms. R-matrix-limited ranges: the same argument for the matrices of C70. Compound systems by induction; the T-matrix by the vanishing row and its symmetry.
* **C105** (proved) At the turning point the irregular Coulomb function belongs to the published regular one. In s = eta^(-2/3) the Wronskian is a polynomial; its constant term is 1 and the other coefficients cancel up to the rounding of the decimals below s^9. Existence from the signs of the starting values (C61).
* **C106** (proved) The Reich-Moore approximation is exact when the photon widths of different resonances are orthogonal. Both R-matrices are sums over levels. With W the matrix of the level widths in the channels left out, orthogonality makes W W^T diagonal, so the inverse level matrix of the large group is that of the small one (photon channels have L = i); the T-matrix of the kept channels and the sum of squares over those left out follow from the identity for products of levels. Compound systems by induction over the groups.
* **C107** (proved) Unresolved cross sections are averages of Breit-Wigner cross sections. The cross sections of the resonance are Lorentzians in its position (C57, C34), whose integral is 2 pi/G; the dispersive part of elastic scattering is odd. The fluctuation integrals are averages over the same widths (C37).
* **C108** (proved) Between neighbouring resonances scattering vanishes somewhere and reaches the limit of unitarity somewhere. For one channel the collision matrix is exp(-2 i phi) (1 + i P R)/(1 - i P R). Times (E - e1)(e2 - E) the R-function is continuous up to both resonances, negative at the lower and positive at the upper one; by the intermediate value theorem it meets the functions tan(phi)/P and -cot(phi)/P in between, where U is 1 and -1.
* **C109** (proved) Isolated s-wave resonances mean the same in the Breit-Wigner and the Reich-Moore format. From C65 and C69. For one level the matrix 1 - K has an explicit inverse (a rank one change of the unit matrix), so that the first row of the collision matrix is that of a Breit-Wigner level with the total width of all channels; unitarity gives capture. The shift factor of s waves vanishes. The sums over J of the Reich-Moore formula become sums over the resonances since no two have the same J.
* **C110** (proved) The channel matrix and the level matrix forms of R-matrix theory give the same cross sections. With G the matrix of reduced widths and D the diagonal matrix of the distances, R = G^T D^-1 G; (1 - R L)^-1 R = G^T (D - G L G^T)^-1 G by multiplying out, and det(D - G L G^T) = det D det(1 - R L) (Weinstein-Aronszajn). Holds wherever D is regular, which evaluation requires.
* **C111** (proved) Cross sections have a limit at the energy of a resonance without capture width. The level matrix of C110 is regular at the energy: if (D - G L G^T) v = 0, the imaginary part of v* (D - G L G^T) v is a sum of terms of one sign, so v vanishes except at the resonance and G^T v vanishes in open channels. Its entries are continuous there, so the cross sections of C110 are (as in C72), and off the energy they are those of the code. For Reich-Moore ranges the energies of a group are distinct and the elastic reduced width is not zero (C28, C69). T-matrix: the continuity of the level matrix form, element by element.
* **C112** (proved) Raising an average width gives more of its reaction and less of the others. Each quadrature term of the strength `Γ_n Γ_c r_c` is a product of two fluctuating widths over the total width, which is monotone in each width; the weights are not negative. `Improved` says that two spin groups differ in their tables alone and that the parameters of the second favour the reaction; spin groups add, so that compound systems follow by induction, the potential scattering being the same. Ranges: linear interpolation mixes two neighbouring rows of both tables with the same fractions, so that rows that favour a reaction do so in between; the cross sections are those of C67.
* **C113** (proved) Of resonances at the same energy only the sums of the products of their amplitudes matter. `SameStrengths` compares the sums over the resonances with a given energy and eliminated width. The R-matrix is sorted by these pairs, which decide the denominators. Splitting and rotating are shown to keep the sums. Older code: by the formula of C59, in which each K-matrix element is a sum over resonances.
* **C114** (proved) Average cross sections depend on the average widths relative to the level spacing alone. The fluctuation integrals are inversely proportional to a common factor of the widths (C56), which cancels with the factors of the neutron width, the width of the reaction and the spacing. Ranges: linear interpolation keeps a common factor, and the cross sections are those of C67.
* **C115** (proved) Absorption is accompanied by elastic scattering. By the optical theorem (C16) each incident channel contributes 2 g (1 - Re U) to the sum and at least g (1 - Re U)^2 to elastic scattering; the inequality is kept by sums over channels, groups and partial waves (Cauchy-Schwarz). Ranges and the older code with C69, C59 and the limits of C74.

## Where the code disagrees

Each entry names the theorem that proves it, if there is one; the others were noticed while modelling and hold in the
model by inspection.

Numbers that are wrong:

1. The Coulomb phase shift difference is Σ 1/tan(η/n) instead of Σ arctan(η/n) (`C12_disproved`).
2. The phase shift of charged channels is acos(G/√(F²+G²)), which loses the sign of F (`C51_disproved`).
3. Elastic scattering compares U, which carries exp(2iw), with exp(iw): a free charged channel with l ≥ 1 scatters
   (`C52_disproved`).
4. `possibleChannelTotalAngularMomentumValues( l, i, I )` lacks values for projectile spins above 1/2
   (`C04_disproved`).
5. Penetrabilities of charged channels are reported as 0 where G exceeds exp(100) (`C61_disproved`); the wave functions
   for η ≥ 15 and 2η + 0.01 ≤ ρ < 2η + 0.02 are those at 2η (`C63_disproved`); at l = 59 the derivatives are 0
   (`C62_beyond`).
6. In `omGcase4` (5 ≤ η < 15, ρ > 2η) the factor `x1*y1` is missing from the corrections to the slope of the amplitude,
   so that G' is not the derivative of G (`C82_disproved`); one coefficient of the phase has a wrong digit (15178880 for
   13178880). In `omGcase1` the signs of all but the leading coefficient of the slope of order six are flipped
   (`Riccati.codeSlope_eq`), and the term of order five of the exponents does not satisfy the wave equation
   (`Riccati.r5`); both are small enough for `C82_below`.
7. Two resonances of one channel with the same energy: only the last width is kept (`C27_disproved`).
8. Particle channels of R-matrix-limited groups get their reaction by position; surplus channels are dropped
   (`C30_disproved`, `C30_dropped`).
9. Potential scattering of legacy systems takes radius and wave number of the first group for every l
   (`C54_disproved`), and goes up to the greatest l with resonances only (C65).
10. Unresolved ranges take mass ratio and radii of the first l value for all l (C67 assumes one ratio).
11. Elastic channels without resonances of Reich-Moore ranges get the radius AP, not APL (`C69_disproved`).
12. The competitive penetrability is P(E - QX) where ENDF has QX negative for a threshold; in the older code the
    threshold is scaled by A/(A+1) instead of (A+1)/A, and below it the competitive width is not zero (`C71_disproved`,
    `C71_reduces`, `C71_old_reduces`). The cross section of competition is never reported.
13. The older Reich-Moore expansion for small phases is unreachable, and has the wrong sign (`C46_disproved`,
    `C46_expansion`).
14. The strings of J = -1/2 and J = 1/2 are the same (`C07_negative_values_collide`).
15. With a fission width but zero degrees of freedom the fluctuation integrals use one degree of freedom (C37).

Undefined behaviour:

16. A spin group without channels (`C24_disproved`).
17. `penetrability()` of a legacy resonance is never initialised (`C36_always_undefined`).
18. Unresolved tables with zero elastic degrees of freedom read outside the quadrature (`C38_disproved`).
19. Unresolved grids with an energy 0 and a positive one (`C39_zero`).
20. R-matrix-limited ranges without MT=2 or MT=102, or without any pair (`C48_disproved`, `C47_unsupported`).
21. The older `Apply::operator()` flows off its end for combinations of NRO and NAPS that are not allowed
    (`C31_old_disproved`).
22. The older D(I, l) for l > 4 and I = 7/2 (`C43_beyond`).
23. Coulomb functions for l ≥ 60 (`C62_disproved`).

Inputs that are treated in an unexpected way:

24. Without a radius table every NAPS other than 0 is taken as 1 (`C31_disproved`).
25. A Breit-Wigner l value with resonances for J and -J is rejected, and so is a Reich-Moore l value with fission
    resonances for both (`C29_fission_twice_rejected`).
26. Grids may contain points Er - Γ/2 that are not positive (C40 says exactly what they contain).
27. `catch( ... )` in the older `Apply` swallows exceptions of the callback.
28. R-matrix-limited ranges: the flag SHF of the first pair is taken for all pairs (`C70_flags`, `C70_disproved`), and
    the flag PNT is not read at all.
29. Closed channels are left out of the R-matrix altogether. With boundary conditions other than -l, and for photon and
    fission channels with a threshold, the cross sections jump at the threshold (`C72_threshold_jumps`). For
    the same reason the cross sections below a threshold depend on the choice of the boundary condition of the closed
    channel (`C87_closed_channel`).
30. The weights of the quadratures for the fluctuating widths do not add up to exactly one, and a width that vanishes is
    left out of them. Where a fission width begins to be positive, the capture integral jumps (`C72_width_jump`).
31. The grid has the energies of resonances without capture width, at which the R-matrix has a pole; the cross sections
    there are not finite (`C75_disproved`, `C75_group`).
32. The regular Coulomb function is computed downwards from an order of at most 69, at which it is set to zero. For
    channel ratios beyond about 60 it is wrong, and the penetrability is wrong by factors of more than two in either
    direction at arbitrarily large channel ratios (`C85_far`, `C85_disproved`).
33. A compound system adds the contributions of its spin groups to the map of the caller one after the other. When a later
    spin group throws, those of the earlier ones stay in the map (`C88_map_changed`).

## Wrong programs

`seeded/LOG.jsonl` records edits of the model that a realistic bug would make, the claim that each breaks, the theorems
that then failed, and the theorems that were tightened because an edit had survived.
