{"id": "C01", "title": "Particle and particle-pair kinematics are well posed", "statement": "Constructing a particle succeeds exactly when neither its mass nor its electrical charge is negative, and otherwise raises an exception. For a pair of two accepted particles of positive mass the reduced mass is positive, symmetric in the two particles and smaller than both masses, and the centre-of-mass ratio lies strictly between 0 and 1 and sums to 1 with the ratio of the reversed pair. The wave number k of a channel satisfies hbar^2 k^2 / (2 mu) = |E m + Q|, and a channel is below threshold exactly when E < -Q/m.", "quantifier": "all masses and charges", "why_tests_cant": "A test samples a few nuclides; the acceptance boundary and the bounds are claims about every mass and charge.", "anchors": ["src/resonanceReconstruction/rmatrix/Particle/src/ctor.hpp Particle", "src/resonanceReconstruction/rmatrix/Particle/src/verifyNotNegative.hpp", "src/resonanceReconstruction/rmatrix/ParticlePair/src/ctor.hpp ParticlePair", "src/resonanceReconstruction/rmatrix/ParticlePair.hpp reducedMass massRatio"]}
{"id": "C02", "title": "Statistical spin factors exhaust each partial wave", "statement": "For a neutron incident on a target of any spin I, summing the statistical spin factor (2J+1)/(2i+1)/(2I+1) over every channel-quantum-number set that the library enumerates for one orbital angular momentum l gives exactly 2l+1; hence the partial-wave potential scattering is neither over- nor under-counted.", "quantifier": "all half-integer projectile spins i, target spins I and all l", "why_tests_cant": "Sum identity over unboundedly many spins; tests check isolated nuclides.", "anchors": ["src/resonanceReconstruction/rmatrix/src/makeQuantumNumbers.hpp makeQuantumNumbers", "src/resonanceReconstruction/rmatrix/Channel.hpp statisticalSpinFactor", "src/resonanceReconstruction/rmatrix/src/possibleChannelSpinValues.hpp", "src/resonanceReconstruction/rmatrix/src/possibleChannelTotalAngularMomentumValues.hpp"]}
{"id": "C03", "title": "Channel spins and total angular momenta obey the triangle rule exactly", "statement": "The list of channel spins returned for particle spins (a,b) and the list of total angular momenta returned for (l,s) contain exactly the values |a-b|, |a-b|+1, ..., a+b, in increasing order and without repetition.", "quantifier": "all non-negative integer or half-integer spins", "why_tests_cant": "Unbounded domain; off-by-one errors at the end of the range depend on the parity of the spins.", "anchors": ["src/resonanceReconstruction/rmatrix/src/possibleChannelSpinValues.hpp possibleChannelSpinValues", "src/resonanceReconstruction/rmatrix/src/possibleChannelTotalAngularMomentumValues.hpp possibleChannelTotalAngularMomentumValues"]}
{"id": "C04", "title": "Total angular momenta of a full (l, i, I) coupling", "statement": "The list of total angular momenta for orbital momentum l, projectile spin i and target spin I is the union over all channel spins s of the lists for (l,s).", "quantifier": "all l and all half-integer i and I", "why_tests_cant": "The formula is right for every spin-1/2 projectile, so neutron tests can never show that it is wrong for projectiles of spin 1.", "anchors": ["src/resonanceReconstruction/rmatrix/src/possibleChannelTotalAngularMomentumValues.hpp possibleChannelTotalAngularMomentumValues(l,i,I)"]}
{"id": "C05", "title": "Quantum-number enumeration is complete and free of repetition", "statement": "For a given incident particle pair and number of orbital momenta, the enumeration contains a set (l,s,J,parity) exactly when l is below the limit, s couples from the two particle spins, J couples from l and s, and the parity is (-1)^l (the code does not look at the parity of the target); no set occurs twice.", "quantifier": "all spins, parities and limits", "why_tests_cant": "Completeness over an unbounded family.", "anchors": ["src/resonanceReconstruction/rmatrix/src/makeQuantumNumbers.hpp makeQuantumNumbers"]}
{"id": "C06", "title": "Assigning channel spins to resonances never reuses or invents a channel", "statement": "Looking up quantum numbers for (l, J) in the list of still available sets either raises an exception, exactly when none with that l and |J| is left, and leaves the list alone, or returns one with that l and |J| and removes exactly that one. After any sequence of lookups the returned sets together with the remaining ones are a permutation of the initial list; for a neutron, asking for -J and then +J (both being possible) returns the lower and the higher channel spin respectively.", "quantifier": "all lists of available quantum numbers and all lookup sequences", "why_tests_cant": "A claim about every history of a mutable worklist.", "anchors": ["src/resonanceReconstruction/rmatrix/src/makeQuantumNumbers.hpp retrieveQuantumNumber", "src/resonanceReconstruction/rmatrix/src/makeReichMooreChannelData.hpp"]}
{"id": "C07", "title": "Channel identifiers separate channels", "statement": "Two channels get the same channel identifier only if they have the same particle-pair identifier and the same l, s, J and parity sign.", "quantifier": "all particle-pair identifiers and all non-negative integer/half-integer quantum numbers", "why_tests_cant": "Injectivity over an infinite domain.", "anchors": ["src/resonanceReconstruction/rmatrix/Channel/src/makeChannelID.hpp", "src/resonanceReconstruction/rmatrix/ChannelQuantumNumbers/src/toString.hpp toString"]}
{"id": "C08", "title": "T-matrix entries never overwrite each other", "statement": "Two different ordered channel pairs inside a spin group, or in different spin groups of a compound system, never produce the same T-matrix key as long as no particle-pair identifier contains the text '->'.", "quantifier": "all identifiers", "why_tests_cant": "Collision freedom cannot be sampled.", "anchors": ["src/resonanceReconstruction/rmatrix/SpinGroup/src/evaluateTMatrix.hpp evaluateTMatrix"]}
{"id": "C09", "title": "Penetrabilities and shift factors are those of a hard sphere", "statement": "For neutron channels and l=0..4 the penetrability and the shift factor at every positive channel ratio satisfy the hard-sphere recursion starting from P_0=rho, S_0=0; the penetrability is positive and at most rho and increases strictly with rho; the shift factor lies between -l and 0 and equals -l at rho = 0.", "quantifier": "all positive channel ratios, l in 0..4", "why_tests_cant": "Real-valued domain; transcribed polynomial coefficients are only spot checked by tests.", "anchors": ["src/resonanceReconstruction/rmatrix/src/calculatePenetrability.hpp", "src/resonanceReconstruction/rmatrix/src/calculateShiftFactor.hpp", "src/resonanceReconstruction/rmatrix/src/horner.hpp"]}
{"id": "C10", "title": "Orbital momenta above four are rejected, never silently approximated", "statement": "Penetrability, shift factor and phase shift for neutron channels (both in the R-matrix part and in the older Breit-Wigner/Reich-Moore part) raise an exception exactly when l exceeds four.", "quantifier": "all l and channel ratios", "why_tests_cant": "Unbounded l.", "anchors": ["src/resonanceReconstruction/rmatrix/src/calculatePenetrability.hpp", "src/resonanceReconstruction/rmatrix/src/calculateShiftFactor.hpp", "src/resonanceReconstruction/rmatrix/src/calculatePhaseShift.hpp", "src/resonanceReconstruction/src/penetrationShift.hpp", "src/resonanceReconstruction/src/phaseShift.hpp"]}
{"id": "C11", "title": "Hard-sphere phase shifts are consistent with penetrability and shift", "statement": "For neutron channels and l=1..4, at every positive channel ratio, exp(2i phi_l) equals exp(2i phi_{l-1}) times ((l-S)-iP)/((l-S)+iP) with P,S those of l-1; so the scattering and interference terms built from phi_l are those of a hard sphere although phi_l itself may jump by pi.", "quantifier": "all positive channel ratios, l in 0..4", "why_tests_cant": "Needs an identity at every real argument including the branch points of the arctangent.", "anchors": ["src/resonanceReconstruction/rmatrix/src/calculatePhaseShift.hpp", "src/resonanceReconstruction/src/phaseShift.hpp"]}
{"id": "C12", "title": "Coulomb phase shift difference is the documented sum of arctangents", "statement": "The Coulomb phase shift of a charged channel with orbital momentum l and Sommerfeld parameter eta is the sum over n=1..l of arctan(eta/n); it is 0 for neutral channels and for l=0.", "quantifier": "all eta and l", "why_tests_cant": "The only test value is for l=0 where every formula gives zero.", "anchors": ["src/resonanceReconstruction/rmatrix/src/calculateCoulombPhaseShift.hpp", "src/resonanceReconstruction/rmatrix/Channel/src/coulombPhaseShift.hpp"]}
{"id": "C13", "title": "The old and the new hard-sphere functions agree", "statement": "penetrationShift/phaseShift of the older Breit-Wigner and Reich-Moore code return the same penetrability, shift and phase (up to multiples of pi) as calculatePenetrability, calculateShiftFactor and calculatePhaseShift at every positive channel ratio for l=0..4; at ratio <= 0 the old penetrability is 0.", "quantifier": "all channel ratios and l in 0..4", "why_tests_cant": "Agreement of two independent transcriptions at every argument.", "anchors": ["src/resonanceReconstruction/src/penetrationShift.hpp", "src/resonanceReconstruction/src/phaseShift.hpp", "src/resonanceReconstruction/rmatrix/src/calculatePenetrability.hpp", "src/resonanceReconstruction/rmatrix/src/calculateShiftFactor.hpp", "src/resonanceReconstruction/rmatrix/src/calculatePhaseShift.hpp"]}
{"id": "C14", "title": "Capture cross section of an R-matrix spin group is never negative", "statement": "For every spin group with any number of channels and resonances, real reduced widths, any boundary condition option, non-negative penetrabilities, and at every energy, the collision-matrix row of each incident channel has norm at most one, so that the capture cross section computed as 1 - sum |U|^2 is non-negative.", "quantifier": "all numbers of channels and resonances, all parameters, all energies where the level matrix is invertible", "why_tests_cant": "Matrix inequality over arbitrary dimension.", "anchors": ["src/resonanceReconstruction/rmatrix/SpinGroup/src/evaluate.hpp evaluate", "src/resonanceReconstruction/rmatrix/RLMatrixCalculator/ReichMoore/src/call.hpp", "src/resonanceReconstruction/rmatrix/Resonance/src/rmatrix.hpp", "src/resonanceReconstruction/rmatrix/LMatrixCalculator/ShiftFactor/src/call.hpp", "src/resonanceReconstruction/rmatrix/LMatrixCalculator/Constant/src/call.hpp"]}
{"id": "C15", "title": "Without eliminated capture widths nothing is lost", "statement": "If all eliminated-capture reduced widths of a spin group are zero, the collision matrix row is normalised and the capture cross section is exactly zero at every energy.", "quantifier": "all spin groups, energies off the resonance poles", "why_tests_cant": "Exact identity over arbitrary dimension.", "anchors": ["src/resonanceReconstruction/rmatrix/SpinGroup/src/evaluate.hpp", "src/resonanceReconstruction/rmatrix/RLMatrixCalculator/ReichMoore/src/call.hpp"]}
{"id": "C16", "title": "Optical theorem: partial cross sections sum to the total", "statement": "The sum of all cross sections that evaluating a spin group adds, over all outgoing reactions and capture, equals the sum over the incident channels of 2*(pi/k^2)*g*(1 - Re(exp(-iw) U_cc)) - i.e. is fixed by the diagonal collision-matrix elements alone. For a Reich-Moore range of an ENDF evaluation, and for a system of the older Reich-Moore code, all reported cross sections together are 2 pi/k^2 times the sum of g (1 - Re U) over the J of all orbital momenta, where U is the diagonal element of the collision matrix of the ENDF manual, or exp(-2i phi) where there are no resonances. For an R-matrix-limited range (in the cases of C70) they are 2 pi/k^2 times the sum of g (1 - Re U) over the elastic channels of all spin groups.", "quantifier": "all spin groups and energies; all Reich-Moore and R-matrix-limited ranges and systems of the older code with any number of orbital momenta and resonances", "why_tests_cant": "Sum identity over arbitrary channel count.", "anchors": ["src/resonanceReconstruction/rmatrix/SpinGroup/src/evaluate.hpp", "src/resonanceReconstruction/rmatrix/src/makeReichMooreCompoundSystem.hpp", "src/resonanceReconstruction/reichMoore/Base/src/evaluate.hpp", "src/resonanceReconstruction/reichMoore/Lvalue/src/call.hpp", "src/resonanceReconstruction/rmatrix/src/makeCompoundSystem.hpp"]}
{"id": "C17", "title": "Reciprocity: the T-matrix and the collision matrix are symmetric", "statement": "For every spin group and energy, the T-matrix element for channels (a,b) equals that for (b,a); this is also what makes the code's use of matrix columns as rows correct.", "quantifier": "all spin groups and energies", "why_tests_cant": "Symmetry for arbitrary dimension, through a matrix inverse.", "anchors": ["src/resonanceReconstruction/rmatrix/SpinGroup/src/evaluateTMatrix.hpp", "src/resonanceReconstruction/rmatrix/RLMatrixCalculator/ReichMoore/src/call.hpp"]}
{"id": "C18", "title": "Closed channels are not populated", "statement": "At an energy below the threshold of an outgoing channel the cross section and T-matrix element from any open channel to it are zero, and the other reaction cross sections are those of the same spin group with that channel's reduced widths set to zero.", "quantifier": "all spin groups, energies and threshold patterns", "why_tests_cant": "Requires all patterns of open/closed channels.", "anchors": ["src/resonanceReconstruction/rmatrix/RLMatrixCalculator/ReichMoore/src/call.hpp", "src/resonanceReconstruction/rmatrix/Channel/src/belowThreshold.hpp", "src/resonanceReconstruction/rmatrix/SpinGroup/src/evaluate.hpp"]}
{"id": "C19", "title": "The level-matrix inversion is well posed", "statement": "The matrix inverted during evaluation is invertible at every energy that is not an exact pole of the R-matrix, whenever every channel open at that energy has a positive penetrability.", "quantifier": "all spin groups and energies", "why_tests_cant": "Non-singularity over a continuum; singular inputs would give NaN rather than a failing assertion.", "anchors": ["src/resonanceReconstruction/rmatrix/RLMatrixCalculator/ReichMoore/src/call.hpp"]}
{"id": "C20", "title": "Cross sections do not depend on arbitrary sign conventions or input order", "statement": "Flipping the sign of all reduced widths of one resonance, or of one channel in all resonances, or permuting the resonances of the table, leaves every cross section unchanged; permuting the channels (with incident channels that share wave number and spin factor) leaves the cross section of every reaction unchanged. The T-matrix is the same for every order of the resonances and of the channels (whatever the incident channels), and a change of signs changes the element between two channels by the product of the signs of these channels.", "quantifier": "all spin groups, energies, sign patterns and permutations", "why_tests_cant": "Metamorphic claim over all permutations.", "anchors": ["src/resonanceReconstruction/rmatrix/Resonance/src/rmatrix.hpp", "src/resonanceReconstruction/rmatrix/SpinGroup/src/evaluate.hpp", "src/resonanceReconstruction/rmatrix/SpinGroup/src/evaluateTMatrix.hpp"]}
{"id": "C21", "title": "All partial cross sections are non-negative", "statement": "Every entry that evaluating a spin group or compound system adds to the result map (elastic, reaction, capture) is non-negative.", "quantifier": "all spin groups, compound systems, energies", "why_tests_cant": "Universal sign claim.", "anchors": ["src/resonanceReconstruction/rmatrix/SpinGroup/src/evaluate.hpp", "src/resonanceReconstruction/rmatrix/CompoundSystem/src/evaluate.hpp"]}
{"id": "C22", "title": "Evaluation accumulates: contributions add and earlier entries survive", "statement": "Evaluating at an energy adds, for each reaction, the contribution of each spin group to whatever the map already contained; entries of other reactions are untouched, and the result does not depend on the order of the spin groups; a second evaluation into the same map doubles the contributions. T-matrix evaluation instead overwrites and is idempotent.", "quantifier": "all maps, compound systems and energies", "why_tests_cant": "Claim about every prior map content and every call sequence.", "anchors": ["src/resonanceReconstruction/rmatrix/SpinGroup/src/evaluate.hpp", "src/resonanceReconstruction/rmatrix/CompoundSystem/src/evaluate.hpp", "src/resonanceReconstruction/rmatrix/CompoundSystem/src/evaluateTMatrix.hpp"]}
{"id": "C23", "title": "Evaluation results are independent of the call history", "statement": "Although evaluation updates internal caches, the cross sections, T-matrix elements and grids returned for an energy are the same after any sequence of earlier evaluations at any energies.", "quantifier": "all call sequences", "why_tests_cant": "Stateful caches: requires all histories.", "anchors": ["src/resonanceReconstruction/rmatrix/RLMatrixCalculator/ReichMoore/src/call.hpp", "src/resonanceReconstruction/rmatrix/SpinGroup/src/evaluate.hpp", "src/resonanceReconstruction/rmatrix/legacy/resolved/SpinGroup/SingleLevelBreitWigner/src/precompute.hpp"]}
{"id": "C24", "title": "A spin group is accepted exactly when it is consistent", "statement": "Constructing a spin group from channels and a resonance table succeeds exactly when there is at least one channel, all channels share the incident pair and J-parity, channel identifiers are unique, at least one channel belongs to the incident pair, and the table lists the same identifiers in the same order; every other input raises an exception.", "quantifier": "all channel lists and tables", "why_tests_cant": "All malformed inputs, including the empty list.", "anchors": ["src/resonanceReconstruction/rmatrix/SpinGroup/src/ctor.hpp", "src/resonanceReconstruction/rmatrix/SpinGroup/src/verifyChannels.hpp", "src/resonanceReconstruction/rmatrix/SpinGroup/src/verifyIncidentChannels.hpp", "src/resonanceReconstruction/rmatrix/SpinGroup/src/verifyResonanceChannels.hpp", "src/resonanceReconstruction/rmatrix/SpinGroup/src/makeReactionIdentifiers.hpp"]}
{"id": "C25", "title": "A compound system groups channel data by J and parity without loss", "statement": "Building a compound system from channel data yields one spin group per distinct J-parity, in increasing order, containing exactly the data with that J-parity in the original order, and the uniqueness check on spin groups can never fail on this output.", "quantifier": "all lists of channel data", "why_tests_cant": "Partition property over arbitrary lists.", "anchors": ["src/resonanceReconstruction/rmatrix/CompoundSystem/src/makeSpinGroups.hpp", "src/resonanceReconstruction/rmatrix/CompoundSystem/src/verifySpinGroups.hpp"]}
{"id": "C26", "title": "Resonance tables built from channel data are faithful", "statement": "The table built from a group's channel data has strictly increasing energies; it has a resonance at E exactly when some channel lists E; each width is the last one listed for that channel and energy, zero if none; more than one eliminated channel raises an exception.", "quantifier": "all lists of channel data", "why_tests_cant": "Arbitrary number of channels and energies with arbitrary overlaps.", "anchors": ["src/resonanceReconstruction/rmatrix/SpinGroup/src/makeResonanceTable.hpp", "src/resonanceReconstruction/rmatrix/SpinGroup/src/makeChannels.hpp"]}
{"id": "C27", "title": "No resonance width is lost when tables are assembled", "statement": "Every (channel, energy, width) listed in the input data of a spin group can be read back from its resonance table.", "quantifier": "all lists of channel data", "why_tests_cant": "Fails only for repeated energies inside one channel, which typical evaluations avoid.", "anchors": ["src/resonanceReconstruction/rmatrix/SpinGroup/src/makeResonanceTable.hpp", "src/resonanceReconstruction/rmatrix/src/makeParticleChannelData.hpp consolidateChannelData"]}
{"id": "C28", "title": "Consolidation leaves one eliminated channel per J-parity and keeps all data", "statement": "After consolidation there is at most one eliminated channel per J-parity, its energies and widths are the concatenation of the merged ones, and all other channels are unchanged and in order.", "quantifier": "all lists of channel data", "why_tests_cant": "List-rewriting loop, all lists.", "anchors": ["src/resonanceReconstruction/rmatrix/src/makeParticleChannelData.hpp consolidateChannelData"]}
{"id": "C29", "title": "Every elastic channel of a Reich-Moore range appears exactly once", "statement": "The compound system built from a Reich-Moore evaluation contains one elastic channel for each (l,s,J) with l below the number of l values needed for convergence, whether or not the evaluation gives resonances for it, and no other elastic channel. A physically sound evaluation is accepted exactly when no l value gives fission resonances for both channel spins of the same J.", "quantifier": "all evaluations", "why_tests_cant": "Requires tracking a worklist through nested loops for all inputs.", "anchors": ["src/resonanceReconstruction/rmatrix/src/makeReichMooreCompoundSystem.hpp", "src/resonanceReconstruction/rmatrix/src/makeReichMooreChannelData.hpp", "src/resonanceReconstruction/rmatrix/src/makeQuantumNumbers.hpp"]}
{"id": "C30", "title": "R-matrix-limited channels keep their reaction and none is dropped", "statement": "Building particle channels for an ENDF R-matrix-limited spin group returns one channel per listed channel, each with the particle pair and reaction type (MT) of the pair number it references.", "quantifier": "all particle-pair lists and channel lists", "why_tests_cant": "Holds for files in which channel i references pair i, so common files cannot reveal the violation.", "anchors": ["src/resonanceReconstruction/rmatrix/src/makeParticleChannels.hpp"]}
{"id": "C31", "title": "Radius selection follows the NRO/NAPS decision table", "statement": "Channel radii built from ENDF flags use exactly the radius prescribed for each (NRO, NAPS) combination; every other combination raises an exception, in the R-matrix part; in the older Apply functions every combination either calls the callback once with the prescribed radii or raises an exception.", "quantifier": "all flag values and radii", "why_tests_cant": "All integer flag values including invalid ones.", "anchors": ["src/resonanceReconstruction/rmatrix/src/makeChannelRadii.hpp", "src/resonanceReconstruction/breitWigner/singleLevel/Apply/src/call.hpp", "src/resonanceReconstruction/breitWigner/multiLevel/Apply/src/call.hpp", "src/resonanceReconstruction/reichMoore/Apply/src/call.hpp"]}
{"id": "C32", "title": "MLBW elastic scattering is a squared amplitude", "statement": "For each spin group the multi-level Breit-Wigner elastic contribution plus g times the hard-sphere term equals pi/k^2*g*|1-U|^2 with U = exp(-2 i phi)(1 + i sum_r Gamma_n/(E'_r-E-i Gamma/2)); consequently the elastic cross section of a compound system in which the statistical factors of each l add up to at most 2l+1 is non-negative at every energy.", "quantifier": "all numbers of resonances, all parameters with non-zero total widths, all energies", "why_tests_cant": "Algebraic identity over arbitrary many resonances with a double sum.", "anchors": ["src/resonanceReconstruction/rmatrix/legacy/resolved/SpinGroup/MultiLevelBreitWigner/src/evaluate.hpp", "src/resonanceReconstruction/rmatrix/legacy/resolved/SpinGroup/SingleLevelBreitWigner/src/evaluate.hpp", "src/resonanceReconstruction/rmatrix/legacy/CompoundSystemBase/src/evaluate.hpp"]}
{"id": "C33", "title": "Breit-Wigner capture and fission are non-negative; single-level elastic need not be", "statement": "With non-negative widths, spin factor and radius, a Breit-Wigner group adds nothing negative to capture and fission at any energy, in the single-level and the multi-level formalism, which agree on these reactions; the single-level elastic cross section including potential scattering can be negative. (Competition is not reported by either.)", "quantifier": "all tables and energies", "why_tests_cant": "Sign claims for all inputs plus existence of a violating input.", "anchors": ["src/resonanceReconstruction/rmatrix/legacy/resolved/SpinGroup/SingleLevelBreitWigner/src/evaluate.hpp", "src/resonanceReconstruction/rmatrix/legacy/resolved/SpinGroup/MultiLevelBreitWigner/src/evaluate.hpp"]}
{"id": "C34", "title": "With one resonance SLBW and MLBW coincide", "statement": "A spin group with at most one resonance gives the same cross sections under both formalisms; for several resonances they differ in the elastic cross section only.", "quantifier": "all single-resonance groups; all groups", "why_tests_cant": "Universal.", "anchors": ["src/resonanceReconstruction/rmatrix/legacy/resolved/SpinGroup/MultiLevelBreitWigner/src/evaluate.hpp"]}
{"id": "C35", "title": "Legacy compound systems accept exactly non-empty lists with distinct (l,J)", "statement": "Constructing a legacy compound system succeeds exactly for a non-empty list of spin groups whose (l,J) are pairwise different; and the greatest l is used for potential scattering, which is computed for every l from 0 to that maximum.", "quantifier": "all lists", "why_tests_cant": "All lists, order of groups.", "anchors": ["src/resonanceReconstruction/rmatrix/legacy/CompoundSystemBase/src/ctor.hpp", "src/resonanceReconstruction/rmatrix/legacy/CompoundSystemBase/src/verifySpinGroups.hpp", "src/resonanceReconstruction/rmatrix/legacy/CompoundSystemBase/src/getLMax.hpp", "src/resonanceReconstruction/rmatrix/legacy/CompoundSystemBase/src/evaluate.hpp"]}
{"id": "C36", "title": "Legacy resonance accessors are defined", "statement": "Every accessor of a legacy resolved resonance returns the value given at construction or computed from it.", "quantifier": "all construction arguments", "why_tests_cant": "Reading an uninitialised member may return anything, including the expected value.", "anchors": ["src/resonanceReconstruction/rmatrix/legacy/resolved/Resonance.hpp penetrability", "src/resonanceReconstruction/rmatrix/legacy/resolved/Resonance/src/ctor.hpp"]}
{"id": "C37", "title": "Fluctuation integrals satisfy the width sum rule", "statement": "Whenever the fluctuation integrals are returned, they are the averages of x_n x_c / Gamma over the independent fluctuations of the widths given by the quadrature, in all four branches of the code; the integrals weighted with their widths add up to a constant that depends on the degrees of freedom and on which widths are zero but not on the widths, and which is 1 within 0.2%; every integral is non-negative for non-negative widths; the integrals exist for all non-negative widths with a positive elastic or capture width.", "quantifier": "all real widths, all numbers of degrees of freedom from 1 to 4", "why_tests_cant": "Identity for all real widths and each of the four code branches.", "anchors": ["src/resonanceReconstruction/rmatrix/legacy/unresolved/src/calculateFluctuationIntegrals.hpp"]}
{"id": "C38", "title": "Degrees of freedom accepted by the table never index outside the quadrature", "statement": "For every unresolved resonance table that is accepted, the fluctuation integrals are evaluated without reading outside the quadrature tables.", "quantifier": "all accepted tables", "why_tests_cant": "Out-of-range reads are undefined behaviour and need not be visible in a test.", "anchors": ["src/resonanceReconstruction/rmatrix/legacy/unresolved/ResonanceTable/src/verifyTable.hpp", "src/resonanceReconstruction/rmatrix/legacy/unresolved/src/calculateFluctuationIntegrals.hpp"]}
{"id": "C39", "title": "The unresolved energy grid is finite, ordered, complete and fine enough", "statement": "For every list of resonance energies, except those that contain zero and a positive energy, the grid construction terminates and returns a strictly increasing list that contains every given energy, stays within the given extremes, adds only the fixed 13 points per decade, and in which positive neighbours differ by at most a factor 1.25. With zero and a positive energy the behaviour is undefined.", "quantifier": "all lists of energies", "why_tests_cant": "Termination and global density claims of a loop that inserts into the list it iterates over.", "anchors": ["src/resonanceReconstruction/rmatrix/legacy/unresolved/CompoundSystem/src/grid.hpp"]}
{"id": "C40", "title": "Resolved grids are sorted, duplicate-free and cover every positive resonance", "statement": "Grids of spin groups and compound systems are strictly increasing and consist exactly of E_r and E_r +- Gamma/2 over all resonances with positive energy.", "quantifier": "all tables", "why_tests_cant": "All sizes and overlaps.", "anchors": ["src/resonanceReconstruction/rmatrix/SpinGroup/src/grid.hpp", "src/resonanceReconstruction/rmatrix/CompoundSystem/src/grid.hpp", "src/resonanceReconstruction/rmatrix/legacy/resolved/SpinGroup/SingleLevelBreitWigner/src/grid.hpp", "src/resonanceReconstruction/rmatrix/legacy/resolved/CompoundSystem/src/grid.hpp"]}
{"id": "C41", "title": "A reconstructor only answers inside its energy range", "statement": "Calling a reconstructor at E returns an empty map exactly when E lies outside the closed interval of its range (for systems that produce at least one entry), and its grid contains exactly the points of the underlying grid inside that interval.", "quantifier": "all energies and ranges", "why_tests_cant": "Boundary behaviour for all ranges.", "anchors": ["src/resonanceReconstruction/rmatrix/Reconstructor.hpp"]}
{"id": "C42", "title": "Conversion from ENDF widths to reduced widths is invertible and sign preserving", "statement": "The reduced elastic width made from an ENDF width G at penetrability P>0 has the sign of G and satisfies 2*P*gamma^2 = |G|; eliminated and fission widths likewise satisfy 2*gamma^2 = |G|.", "quantifier": "all widths and penetrabilities", "why_tests_cant": "Real-valued identity.", "anchors": ["src/resonanceReconstruction/rmatrix/src/makeReichMooreChannelData.hpp", "src/resonanceReconstruction/rmatrix/src/makeParticleChannelData.hpp"]}
{"id": "C43", "title": "The precomputed repeated-J factors of the old MLBW code are right", "statement": "The factor D(I,l) used in the old multi-level code equals 2l+1 minus the sum of the statistical factors over J from ||I-l|-1/2| to I+l+1/2 (up to the rounding of the tabulated decimals) for every target spin I and l=0..4, and together with the closed-form statistical factor sum gives 2l+1.", "quantifier": "all half-integer I, l in 0..4", "why_tests_cant": "Unbounded I; only a few nuclides are tested.", "anchors": ["src/resonanceReconstruction/breitWigner/multiLevel/src/D.hpp", "src/resonanceReconstruction/breitWigner/lvalue/Type/src/statisticalFactorSummation.hpp"]}
{"id": "C44", "title": "Old MLBW elastic scattering is non-negative and equal to the legacy MLBW one", "statement": "The elastic cross section of the old multi-level code is non-negative whenever the J values of the resonances are physically allowed, and its J-group contributions equal those of the newer multi-level spin group for the same penetrability, shift and phase.", "quantifier": "all resonance lists and energies", "why_tests_cant": "Equality of two independent formulas for arbitrarily many resonances.", "anchors": ["src/resonanceReconstruction/breitWigner/multiLevel/Lvalue/src/evaluate.hpp", "src/resonanceReconstruction/breitWigner/multiLevel/Resonance/src/call.hpp", "src/resonanceReconstruction/rmatrix/legacy/resolved/SpinGroup/MultiLevelBreitWigner/src/evaluate.hpp"]}
{"id": "C45", "title": "Old Reich-Moore capture is non-negative and the scalar shortcut is exact", "statement": "In the old Reich-Moore code, total minus elastic minus fission is non-negative for each J group with non-negative capture widths; and for groups without fission the scalar shortcut gives the same result as the full 3x3 inversion.", "quantifier": "all resonance lists and energies", "why_tests_cant": "3x3 complex inversion for all parameters.", "anchors": ["src/resonanceReconstruction/reichMoore/Lvalue/src/solveRmatrix.hpp", "src/resonanceReconstruction/reichMoore/Lvalue/src/solveRfunction.hpp", "src/resonanceReconstruction/reichMoore/Resonance/src/call.hpp", "src/resonanceReconstruction/reichMoore/Lvalue/src/call.hpp"]}
{"id": "C46", "title": "The low-phase expansion of the old Reich-Moore code is used where intended", "statement": "The series expansion that protects small phase shifts from cancellation is reachable for physical parameters.", "quantifier": "all physical parameters", "why_tests_cant": "Unreachable code is not distinguishable by outputs of a few tests.", "anchors": ["src/resonanceReconstruction/reichMoore/Lvalue/src/solveRfunction.hpp"]}
{"id": "C47", "title": "ENDF ranges are dispatched to exactly one formalism", "statement": "Each resonance range is turned into the reconstructor prescribed by its (LRU, LRF) flags and keeps its energy boundaries; unsupported flags raise an exception.", "quantifier": "all flag values", "why_tests_cant": "All integer flag combinations.", "anchors": ["src/resonanceReconstruction/rmatrix/src/fromENDF.hpp"]}
{"id": "C48", "title": "Particle pairs for incident and capture reactions must exist", "statement": "Constructing particle pairs from an R-matrix-limited evaluation that lacks the MT=2 or MT=102 pair raises an exception.", "quantifier": "all pair lists", "why_tests_cant": "Reading past the end is undefined behaviour, so a test may pass by accident.", "anchors": ["src/resonanceReconstruction/rmatrix/src/makeParticlePairs.hpp", "src/resonanceReconstruction/rmatrix/src/makeParticleChannelData.hpp"]}
{"id": "C49", "title": "Unresolved cross sections are consistent", "statement": "Evaluating an unresolved spin group with non-negative parameters adds non-negative capture and fission contributions (competition is not reported); elastic, capture and fission together add no more than 2 pi^2/k^2 g Gamma_n/D (c - 2 sin^2 phi) with c equal to 1 within 0.2%, and exactly that if there is no competition; elastic adds no less than the interference term.", "quantifier": "all tables and energies", "why_tests_cant": "Universal over tables.", "anchors": ["src/resonanceReconstruction/rmatrix/legacy/unresolved/SpinGroup/src/evaluate.hpp", "src/resonanceReconstruction/rmatrix/legacy/unresolved/ResonanceTable/src/call.hpp"]}
{"id": "C50", "title": "Result arithmetic is componentwise", "statement": "The arithmetic on packed results and legacy data records is componentwise, associative and commutative, so that accumulation order does not matter; subtraction undoes addition.", "quantifier": "all packs and records", "why_tests_cant": "Algebraic laws.", "anchors": ["src/resonanceReconstruction/pack.hpp", "src/resonanceReconstruction/rmatrix/legacy/Data.hpp", "src/resonanceReconstruction/breitWigner/CrossSection.hpp"]}
{"id": "C51", "title": "Charged-particle phase shift is the phase of G + iF", "statement": "The hard-sphere phase shift computed for a charged-particle channel from the Coulomb wave functions F and G satisfies exp(2i phi) = (G+iF)/(G-iF), for whatever values the wave-function routine returns.", "quantifier": "all l, channel ratios, Sommerfeld parameters and all wave-function values that are not both zero", "why_tests_cant": "The sign of F that breaks it depends on the channel ratio; tests sample a few energies where F is positive.", "anchors": ["src/resonanceReconstruction/rmatrix/src/calculatePhaseShift.hpp:calculatePhaseShift<ChargedParticle>"]}
{"id": "C52", "title": "A free incident channel does not scatter", "statement": "In a spin group whose incident channel has zero hard-sphere phase shift and zero reduced widths, evaluation adds nothing to the elastic cross section, whatever the Coulomb phase shift of the channel.", "quantifier": "all incident channels, all Coulomb phases, all energies", "why_tests_cant": "Needs a charged incident channel with l > 0; existing tests use neutrons, for which the Coulomb phase is zero.", "anchors": ["src/resonanceReconstruction/rmatrix/SpinGroup/src/evaluate.hpp:evaluate", "src/resonanceReconstruction/rmatrix/SpinGroup/src/omegas.hpp:omegas"]}
{"id": "C53", "title": "Evaluation returns the documented Reich-Moore R-matrix cross sections", "statement": "Whenever evaluating a spin group returns, the result map holds for every reaction of the group its old value plus pi/k^2 g times the sum over incident channels c of |exp(iw_c) delta_cc' - U_cc'|^2 (and 1 - sum |U_cc'|^2 for capture), with U = Omega (1 + 2i sqrt(P) (1-RL)^-1 R sqrt(P)) Omega and R_cc' = sum gamma_c gamma_c' / (Er - E - i gamma_e^2) over open channels; all other entries are unchanged.", "quantifier": "all spin groups, energies, maps and cache states", "why_tests_cant": "An equality of the program with the textbook formula for every number of channels and resonances.", "anchors": ["src/resonanceReconstruction/rmatrix/SpinGroup/src/evaluate.hpp", "src/resonanceReconstruction/rmatrix/RLMatrixCalculator/ReichMoore/src/call.hpp", "src/resonanceReconstruction/rmatrix/Resonance/src/rmatrix.hpp"]}
{"id": "C54", "title": "Elastic scattering stays non-negative for radii that depend on l", "statement": "The elastic cross section of a multi-level Breit-Wigner compound system with distinct, physically allowed (l,J) is non-negative at every energy, also if the channel radius differs between values of l.", "quantifier": "all systems, radii and energies", "why_tests_cant": "Sign of a sum of interference terms over all inputs; the tests use one radius for all l.", "anchors": ["src/resonanceReconstruction/rmatrix/legacy/CompoundSystemBase/src/evaluate.hpp", "src/resonanceReconstruction/rmatrix/legacy/resolved/SpinGroup/MultiLevelBreitWigner/src/evaluate.hpp"]}
{"id": "C55", "title": "The quadrature represents chi-squared distributions", "statement": "For one to four degrees of freedom the quadrature used for the fluctuation integrals has positive points and non-negative weights, total weight 1 within 0.025%, mean 1 within 0.12% and second moment 1+2/nu within 0.015.", "quantifier": "all admissible degrees of freedom", "why_tests_cant": "The tests compare integrals for a few widths; a wrong digit or swapped column in the tables shifts all results a little.", "anchors": ["src/resonanceReconstruction/rmatrix/legacy/unresolved/src/calculateFluctuationIntegrals.hpp"]}
{"id": "C56", "title": "Fluctuation integrals do not depend on the unit of energy", "statement": "Multiplying all widths by a common non-zero factor divides every fluctuation integral by that factor.", "quantifier": "all widths, factors and degrees of freedom", "why_tests_cant": "Universal over real factors and widths.", "anchors": ["src/resonanceReconstruction/rmatrix/legacy/unresolved/src/calculateFluctuationIntegrals.hpp"]}
{"id": "C57", "title": "Breit-Wigner cross sections have the values of the documented formula", "statement": "Whenever evaluating a Breit-Wigner group built from resonance parameters returns, the elastic, capture and fission cross sections are the old values plus pi/k^2 g times the single-level (or multi-level) sums over the resonances of Gn Gx / ((E-E')^2 + G^2/4), with energy-dependent widths and shifted positions; fission is reported exactly when it does not vanish, and nothing else is reported.", "quantifier": "all groups, resonance parameters, energies and maps", "why_tests_cant": "An equality of the program with the textbook formula for every number of resonances.", "anchors": ["src/resonanceReconstruction/rmatrix/legacy/resolved/SpinGroup/SingleLevelBreitWigner/src/evaluate.hpp", "src/resonanceReconstruction/rmatrix/legacy/resolved/SpinGroup/MultiLevelBreitWigner/src/evaluate.hpp", "src/resonanceReconstruction/rmatrix/legacy/resolved/Resonance.hpp"]}
{"id": "C58", "title": "The older Breit-Wigner systems have the cross sections of the ENDF formulas", "statement": "Whenever a system built by the older code from a single-level or multi-level Breit-Wigner range is evaluated, elastic, capture and fission are those of the documented formulas summed over all l values and resonances of the range, for the radii chosen by the flags (elastic multi-level up to the rounding of tabulated decimals); the order of resonances in the range does not matter; and every physical evaluation gives a system and cross sections at every energy other than zero; ranges of other formalisms are refused with an exception.", "quantifier": "all ranges, radii and energies", "why_tests_cant": "An equality with the textbook formula for any number of l values and resonances, including the sorting and grouping by J.", "anchors": ["src/resonanceReconstruction/breitWigner/singleLevel/Base/src/evaluate.hpp", "src/resonanceReconstruction/breitWigner/multiLevel/Base/src/evaluate.hpp", "src/resonanceReconstruction/breitWigner/singleLevel/Apply/src/build.hpp", "src/resonanceReconstruction/breitWigner/multiLevel/Apply/src/build.hpp", "src/resonanceReconstruction/breitWigner/multiLevel/Base/src/order.hpp"]}
{"id": "C59", "title": "The older Reich-Moore code gives the cross sections of the ENDF formula", "statement": "For every evaluation with non-negative capture widths the elastic, capture and fission cross sections of the older Reich-Moore code are those of the ENDF-6 formula with U = exp(-2i phi)(2(1-K)^-1 - 1) for every l and signed J, with the penetrabilities at the chosen channel radius and the phase shifts at the chosen scattering radius, APL replacing AP, and potential scattering for what the J values do not cover. Every physical evaluation gives cross sections at every positive energy.", "quantifier": "all evaluations, radii, energies and orders of the resonances", "why_tests_cant": "Tests compare a few tabulated values; the formula for any number of resonances, J groups and l values needs a proof.", "anchors": ["src/resonanceReconstruction/reichMoore/Base/src/evaluate.hpp", "src/resonanceReconstruction/reichMoore/Lvalue/src/call.hpp", "src/resonanceReconstruction/reichMoore/Apply/src/build.hpp", "src/resonanceReconstruction/reichMoore/Apply/src/lvalue.hpp", "src/resonanceReconstruction/reichMoore/Inspector.hpp"]}
{"id": "C60", "title": "The older Reich-Moore cross sections are not negative", "statement": "For every evaluation with non-negative capture widths the capture and fission cross sections of the older Reich-Moore code are not negative, and neither is the elastic one if the signed J values can be assigned to different combinations of channel spin and J.", "quantifier": "all evaluations, radii and energies", "why_tests_cant": "Interference minima and incomplete sets of J values are not covered by a finite number of energies.", "anchors": ["src/resonanceReconstruction/reichMoore/Lvalue/src/call.hpp", "src/resonanceReconstruction/reichMoore/Base/src/evaluate.hpp"]}
{"id": "C61", "title": "The penetrability of an open charged-particle channel is positive", "statement": "For l up to 58 the Coulomb wave functions have the Wronskian 1, the penetrability of an open charged-particle channel is positive, S + iP is the logarithmic derivative of the outgoing wave G + iF, and no exception is thrown.", "quantifier": "all orbital angular momenta up to 58, positive channel ratios and Sommerfeld parameters", "why_tests_cant": "The tests compare a handful of tabulated values; sign and normalisation over the whole (l, rho, eta) space need a proof.", "anchors": ["src/resonanceReconstruction/rmatrix/src/coh3-coulomb.hpp", "src/resonanceReconstruction/rmatrix/src/coh3-extwave.hpp", "src/resonanceReconstruction/rmatrix/src/coh3-asympt.hpp", "src/resonanceReconstruction/rmatrix/src/calculatePenetrability.hpp", "src/resonanceReconstruction/rmatrix/src/calculateShiftFactor.hpp"]}
{"id": "C62", "title": "Any orbital angular momentum is safe in a charged-particle channel", "statement": "Asking for the penetrability, shift factor or phase shift of a charged-particle channel never reads or writes outside the internal arrays, whatever the orbital angular momentum.", "quantifier": "all orbital angular momenta, channel ratios and Sommerfeld parameters up to a million", "why_tests_cant": "An access out of bounds may go unnoticed in any single test, and all l have to be tried.", "anchors": ["src/resonanceReconstruction/rmatrix/src/coh3-coulomb.hpp", "src/resonanceReconstruction/rmatrix/src/coh3-extwave.hpp", "src/resonanceReconstruction/rmatrix/src/coh3-asympt.hpp"]}
{"id": "C63", "title": "The returned derivative of G is the derivative of G", "statement": "The derivative G' returned with the irregular Coulomb wave function G is the derivative of G with respect to the channel ratio, within half its value.", "quantifier": "all l up to 58, Sommerfeld parameters and positive channel ratios at which G is differentiable", "why_tests_cant": "The tests compare values at single points with tables; the failing channel ratios form windows of width 0.01.", "anchors": ["src/resonanceReconstruction/rmatrix/src/coh3-coulomb.hpp", "src/resonanceReconstruction/rmatrix/src/coh3-extwave.hpp", "src/resonanceReconstruction/rmatrix/src/coh3-asympt.hpp"]}
{"id": "C64", "title": "Coulomb wave functions of neighbouring angular momenta fit together", "statement": "The functions returned for l up to 58 satisfy the recurrence relations and derivative formulas of Coulomb wave functions over l, with one irregular sequence for all l; the regular function differs from any exact one of Wronskian 1 by exactly the multiple of G that makes it vanish at one higher angular momentum N between l + 11 and 69.", "quantifier": "all l up to 58, channel ratios and Sommerfeld parameters", "why_tests_cant": "Relations between results of all calls at all real arguments.", "anchors": ["src/resonanceReconstruction/rmatrix/src/coh3-coulomb.hpp", "src/resonanceReconstruction/rmatrix/src/coh3-extwave.hpp", "src/resonanceReconstruction/rmatrix/src/coh3-asympt.hpp"]}
{"id": "C65", "title": "A Breit-Wigner range of an ENDF evaluation gives the cross sections of the ENDF manual", "statement": "A single-level or multi-level Breit-Wigner range with allowed spins, positive masses and radii is accepted, and the reconstructor made from it reports at every energy of the range the capture and fission cross sections of the ENDF manual: each resonance counts once with the statistical factor of |J|, its own widths, the penetrabilities and shift factors for the radii that NRO and NAPS prescribe, and, if LRX is set, a competitive width with the penetrability at the energy E - QX (for which see C71). The elastic cross section is that of the manual, potential scattering included, if the l values with resonances are 0 up to some number with one mass ratio. Nothing else is reported.", "quantifier": "all single-level and multi-level Breit-Wigner ranges, tables of radii and energies", "why_tests_cant": "The tests convert a few evaluations and compare at some energies; a wrong width, sign of J or radius shows up only for evaluations that use it.", "anchors": ["src/resonanceReconstruction/rmatrix/src/fromENDF.hpp", "src/resonanceReconstruction/rmatrix/src/makeLegacyBreitWignerCompoundSystem.hpp", "src/resonanceReconstruction/rmatrix/src/makeLegacyBreitWignerSpinGroups.hpp", "src/resonanceReconstruction/rmatrix/src/makeChannelRadii.hpp", "src/resonanceReconstruction/rmatrix/src/makeChannelRadiusTable.hpp", "src/resonanceReconstruction/rmatrix/legacy/CompoundSystemBase/src/evaluate.hpp"]}
{"id": "C67", "title": "An unresolved range of an ENDF evaluation gives the average cross sections of the ENDF manual", "statement": "An unresolved range in any of its three forms (constant parameters, energy-dependent fission widths, everything energy-dependent) with positive masses, radii, spacings and capture widths is accepted, and the reconstructor made from it reports at every energy of the range covered by the tables the average cross sections of the ENDF manual: the level spacing and each width are interpolated linearly at the energy between the rows of their own l and J, the neutron width is the reduced width times its degrees of freedom, the square root of the energy and the penetrability over the channel ratio, the products of widths are averaged with the tabulated degrees of freedom and weighted with the statistical factor of J, and potential scattering is added for every l up to the greatest one. Nothing else is reported.", "quantifier": "all unresolved ranges, tables of radii and energies, for every interpolation library that interpolates as documented", "why_tests_cant": "The tests convert a few evaluations and compare at some energies; a wrong column, row or radius shows up only for evaluations that use it.", "anchors": ["src/resonanceReconstruction/rmatrix/src/fromENDF.hpp", "src/resonanceReconstruction/rmatrix/src/makeLegacyUnresolvedCompoundSystem.hpp", "src/resonanceReconstruction/rmatrix/src/makeLegacyUnresolvedSpinGroups.hpp", "src/resonanceReconstruction/rmatrix/src/makeLegacyUnresolvedResonanceTable.hpp", "src/resonanceReconstruction/rmatrix/legacy/unresolved/SpinGroup/src/evaluate.hpp", "src/resonanceReconstruction/rmatrix/legacy/unresolved/ResonanceTable.hpp"]}
{"id": "C69", "title": "A Reich-Moore range of an ENDF evaluation gives the cross sections of the ENDF manual", "statement": "A Reich-Moore range with allowed spins, one positive mass ratio, positive radii and different resonance energies is accepted, and the reconstructor made from it reports at every energy of the range the cross sections of the ENDF manual: for each l value and signed J the 3x3 collision matrix of the elastic and the two fission channels, made from the resonances of that J with their own widths and the penetrabilities and phases for the radii that NRO, NAPS and the radius of the l value prescribe, weighted with the statistical factor of |J|; capture is what is missing to unitarity; channels without resonances scatter like a hard sphere of the radius of their l value. Nothing else is reported.", "quantifier": "all Reich-Moore ranges, tables of radii and energies", "why_tests_cant": "The tests convert a few evaluations and compare at some energies; the matrices of the code couple the channels of all l values of one J and parity, that they separate into 3x3 blocks is a statement on all evaluations.", "anchors": ["src/resonanceReconstruction/rmatrix/src/fromENDF.hpp", "src/resonanceReconstruction/rmatrix/src/makeReichMooreCompoundSystem.hpp", "src/resonanceReconstruction/rmatrix/src/makeReichMooreChannelData.hpp", "src/resonanceReconstruction/rmatrix/src/makeChannelRadii.hpp", "src/resonanceReconstruction/rmatrix/CompoundSystem/src/evaluate.hpp", "src/resonanceReconstruction/rmatrix/SpinGroup/src/evaluate.hpp"]}
{"id": "C66", "title": "The older and the newer code agree", "statement": "For the same Breit-Wigner or Reich-Moore range and the same constants the older code (namespaces breitWigner and reichMoore) and the reconstructor made by the newer code report the same elastic, capture and fission cross sections at every energy of the range, up to the rounding of tabulated decimals in the older multi-level code, if there are no competitive widths, all l values from 0 on have resonances, and no l value of a Reich-Moore range has both a radius of its own and a J without resonances.", "quantifier": "all Breit-Wigner and Reich-Moore ranges within the stated conditions, tables of radii and energies, and every order in which the older code sorts equal keys", "why_tests_cant": "The two are different programs that share little code; agreement at the tabulated points of some evaluations says nothing on others.", "anchors": ["src/resonanceReconstruction/breitWigner/singleLevel/Apply.hpp", "src/resonanceReconstruction/breitWigner/multiLevel/Apply.hpp", "src/resonanceReconstruction/reichMoore/Apply.hpp", "src/resonanceReconstruction/rmatrix/src/fromENDF.hpp", "src/resonanceReconstruction/rmatrix/Reconstructor.hpp"]}
{"id": "C70", "title": "An R-matrix-limited range of an ENDF evaluation gives the cross sections of the ENDF manual", "statement": "An R-matrix-limited range in the Reich-Moore approximation with allowed spins, different channels and positive masses and radii is accepted, and for neutral incident particles the reconstructor made from it reports at every energy of the range the cross sections of the ENDF manual: for each spin group the R-matrix of its resonances, with reduced widths (given, or made from the widths and the penetrabilities of the channels at the resonance energies), the eliminated capture widths in the denominators and no amplitudes in closed channels; from it the collision matrix with the penetrabilities, shift factors and phases of each channel's own particle pair, Q value, angular momentum and radii, and the boundary condition that the flag SHF of its pair asks for; elastic scattering, each reaction and capture (what is missing to unitarity) weighted with the statistical factor of the group and summed over all groups. Nothing else is reported.", "quantifier": "all R-matrix-limited ranges in the Reich-Moore approximation with neutral incident particles, all Coulomb libraries and energies", "why_tests_cant": "The tests convert a few evaluations and compare at some energies; a channel with the wrong pair, boundary condition or width shows up only for evaluations that use it.", "anchors": ["src/resonanceReconstruction/rmatrix/src/fromENDF.hpp", "src/resonanceReconstruction/rmatrix/src/makeCompoundSystem.hpp", "src/resonanceReconstruction/rmatrix/src/makeParticlePairs.hpp", "src/resonanceReconstruction/rmatrix/src/makeParticleChannels.hpp", "src/resonanceReconstruction/rmatrix/src/makeParticleChannelData.hpp", "src/resonanceReconstruction/rmatrix/CompoundSystem/src/evaluate.hpp", "src/resonanceReconstruction/rmatrix/SpinGroup/src/evaluate.hpp"]}
{"id": "C71", "title": "Below its threshold a competitive reaction has no effect", "statement": "For a Breit-Wigner range whose l values with LRX set have E + QX (A+1)/A < 0, that is, at energies below the threshold of the competitive reaction, the reported cross sections are those of the same range with all competitive widths zero; above it the competitive width has the penetrability at the energy E + QX (A+1)/A, since ENDF defines QX as the value added to the energy in the centre of mass. With LRX = 0 competitive widths have no effect. The same for the older code.", "quantifier": "all single-level and multi-level Breit-Wigner ranges, radii and energies", "why_tests_cant": "Whether a width that should not matter does matter for some evaluation and energy is a comparison of two evaluations at all energies, and is not settled by evaluations without it.", "anchors": ["src/resonanceReconstruction/rmatrix/legacy/resolved/SpinGroup/SingleLevelBreitWigner.hpp", "src/resonanceReconstruction/rmatrix/legacy/resolved/Resonance.hpp", "src/resonanceReconstruction/rmatrix/src/makeLegacyBreitWignerSpinGroups.hpp", "src/resonanceReconstruction/breitWigner/singleLevel/Base/src/evaluate.hpp", "src/resonanceReconstruction/breitWigner/singleLevel/Apply/src/lvalue.hpp"]}
{"id": "C72", "title": "Cross sections are continuous functions of the energy", "statement": "Inside the range of a reconstructor made from a Reich-Moore or R-matrix-limited evaluation with uncharged particles, small changes of the energy change every cross section by little: at each energy with cross sections, for every tolerance, all energies close enough have cross sections of the same reactions within the tolerance. The exceptions are energies around which a tabulated radius jumps, and the thresholds of channels for photons or fission or, when the boundary conditions of the evaluation are used, of channels whose boundary condition is not -l; at those thresholds the cross sections do jump. The same for spin groups and compound systems that users put together, and for Breit-Wigner and unresolved evaluations, where the exceptions are the energy zero, energies around which a radius jumps and, in unresolved ranges, energies at which a fission or competitive width begins or ceases to vanish: there the averages over the fluctuating widths do jump. The elements of the T-matrix of a compound system are continuous functions of the energy with the same exceptions as its cross sections, if no channel identifier contains the arrow of the keys.", "quantifier": "all spin groups, compound systems and ranges with uncharged particles, all energies and tolerances", "why_tests_cant": "Continuity is a statement on all energies around all energies; tests compare a list of energies and see no jump between them. Linearisation of the cross sections relies on it.", "anchors": ["src/resonanceReconstruction/rmatrix/SpinGroup/src/evaluate.hpp", "src/resonanceReconstruction/rmatrix/CompoundSystem/src/evaluate.hpp", "src/resonanceReconstruction/rmatrix/Channel/src/belowThreshold.hpp", "src/resonanceReconstruction/rmatrix/Reconstructor.hpp", "src/resonanceReconstruction/rmatrix/src/fromENDF.hpp", "src/resonanceReconstruction/rmatrix/legacy/CompoundSystemBase/src/evaluate.hpp", "src/resonanceReconstruction/rmatrix/legacy/unresolved/src/calculateFluctuationIntegrals.hpp", "src/resonanceReconstruction/rmatrix/SpinGroup/src/evaluateTMatrix.hpp", "src/resonanceReconstruction/rmatrix/CompoundSystem/src/evaluateTMatrix.hpp"]}
{"id": "C73", "title": "A single resonance has the cross sections of the single-level Breit-Wigner formula", "statement": "A spin group with one resonance adds to each of its reactions the cross section of the single-level Breit-Wigner formula: with the partial widths 2 P_c gamma_c^2 of the open channels, the eliminated width 2 gamma_gamma^2, their sum as the total width, and the resonance energy shifted by the sum of (S_c - B_c) gamma_c^2 (not shifted when the shift factors are the boundary conditions). Capture and every transition between different channels are products of two widths over (E - E_0)^2 + Gamma^2/4, scattering into the same channel has potential scattering, the resonance term and their interference.", "quantifier": "all spin groups with one resonance and any number of channels of any type, both kinds of boundary conditions, all energies and Coulomb libraries", "why_tests_cant": "The matrix inversion of the code and the formula are compared by tests for a few widths and energies; agreement for any number of channels is an identity of rational functions.", "anchors": ["src/resonanceReconstruction/rmatrix/SpinGroup/src/evaluate.hpp", "src/resonanceReconstruction/rmatrix/Resonance/src/rmatrix.hpp", "src/resonanceReconstruction/rmatrix/LMatrixCalculator/Constant/src/call.hpp", "src/resonanceReconstruction/rmatrix/LMatrixCalculator/ShiftFactor/src/call.hpp", "src/resonanceReconstruction/rmatrix/RLMatrixCalculator/ReichMoore/src/call.hpp"]}
{"id": "C74", "title": "Cross sections respect the limits of unitarity", "statement": "No spin group adds to all cross sections together more than 4 pi/k^2 g for each of its incident channels, nor to all cross sections other than those of the incident channels (capture, fission, inelastic and all other reactions) together more than pi/k^2 g for each of them, however many resonances overlap at the energy; for a compound system these limits add up. For a Reich-Moore range no cross section is negative, all together are at most 4 pi/k^2 NLSC^2, and capture and fission together at most pi/k^2 NLSC^2. For an R-matrix-limited range no cross section is negative, all together are at most 4 pi/k^2 times the sum over the spin groups of the evaluation of g times the number of elastic channels it gives for the group, and everything except elastic scattering together at most pi/k^2 times this sum. In the older Reich-Moore code all cross sections together are at most 4 pi/k^2 times the sum of 2l+1 over the orbital momenta of the evaluation, and capture and fission together at most pi/k^2 times this sum, if the J values are allowed ones.", "quantifier": "all spin groups and compound systems with any channels and resonances, all Reich-Moore ranges with non-negative widths, all systems of the older Reich-Moore code, all R-matrix-limited ranges with distinct pairs of particles (any flags, boundary conditions, widths of any sign, charged particles, order and number of channels), all energies, boundary conditions and Coulomb libraries", "why_tests_cant": "A bound is a statement on all resonance parameters and energies; tests see the values of some.", "anchors": ["src/resonanceReconstruction/rmatrix/SpinGroup/src/evaluate.hpp", "src/resonanceReconstruction/rmatrix/CompoundSystem/src/evaluate.hpp", "src/resonanceReconstruction/rmatrix/Reconstructor.hpp", "src/resonanceReconstruction/rmatrix/src/makeReichMooreCompoundSystem.hpp", "src/resonanceReconstruction/rmatrix/src/makeCompoundSystem.hpp", "src/resonanceReconstruction/reichMoore/Base/src/evaluate.hpp", "src/resonanceReconstruction/reichMoore/Lvalue/src/call.hpp"]}
{"id": "C75", "title": "There are cross sections at every point of a reconstructor's grid", "statement": "For a range that makes sense physically and has a positive lower limit, the reconstructor reports a grid and returns finite cross sections at every point of it. The same for the positive points of the grids of spin groups and compound systems, where the functions of the channels have values.", "quantifier": "all Breit-Wigner, Reich-Moore, R-matrix-limited and unresolved ranges, spin groups and compound systems", "why_tests_cant": "Users linearise from the grid, so one failing point spoils an evaluation; which grids have one is a question on all resonance parameters, and the tests evaluate a few.", "anchors": ["src/resonanceReconstruction/rmatrix/Reconstructor.hpp", "src/resonanceReconstruction/rmatrix/SpinGroup/src/grid.hpp", "src/resonanceReconstruction/rmatrix/CompoundSystem/src/grid.hpp", "src/resonanceReconstruction/rmatrix/Resonance/src/rmatrix.hpp", "src/resonanceReconstruction/rmatrix/RLMatrixCalculator/ReichMoore/src/call.hpp", "src/resonanceReconstruction/rmatrix/legacy/unresolved/CompoundSystem/src/grid.hpp"]}
{"id": "C76", "title": "Slow neutrons: reactions follow the 1/v law and elastic scattering becomes constant", "statement": "As the energy of the incident neutron approaches zero, the product of each cross section and the square root of the energy approaches a limit, which only s-waves contribute to and which is given by the channel radii and the resonance parameters; the elastic cross section itself approaches a constant, 4 pi g |b - a M|^2 for each s-wave channel. Evaluation succeeds at all sufficiently small energies.", "quantifier": "all spin groups and compound systems of neutral channels without a pole at zero energy, both boundary conditions, all their reconstructors, and all Reich-Moore and R-matrix-limited ranges with neutral particles that begin at zero energy (with the boundary conditions of the threshold for channels that open there, if boundary conditions are used)", "why_tests_cant": "It is a statement on a limit: a wrong power of the energy in a penetrability or wave number, or a phase shift with another radius, shows only in the trend at energies below all those that are tested.", "anchors": ["src/resonanceReconstruction/rmatrix/SpinGroup/src/evaluate.hpp", "src/resonanceReconstruction/rmatrix/Channel.hpp", "src/resonanceReconstruction/rmatrix/CompoundSystem.hpp", "src/resonanceReconstruction/rmatrix/Reconstructor.hpp", "src/resonanceReconstruction/rmatrix/Channel/src/waveNumber.hpp", "src/resonanceReconstruction/rmatrix/Channel/src/penetrability.hpp", "src/resonanceReconstruction/rmatrix/Channel/src/phaseShift.hpp", "src/resonanceReconstruction/rmatrix/src/fromENDF.hpp", "src/resonanceReconstruction/rmatrix/src/makeCompoundSystem.hpp"]}
{"id": "C77", "title": "Channels and resonances that take no part may be left out", "statement": "A channel of another pair than the incident one that is closed at the energy, or in which all resonances have zero widths, may be left out of a spin group (or added to it) at any position: all cross sections of the other reactions and all T-matrix elements between the other channels stay the same, and the reaction that loses its channels had the cross section zero. Resonances whose widths in all open channels are zero may be left out of the table, whatever their eliminated widths. From an ENDF range in the single-level or multi-level Breit-Wigner format resonances without neutron width may be left out, whatever their other widths and spins, as long as each orbital momentum that has resonances keeps one: all cross sections stay the same at every energy. So may resonances without neutron and fission widths from a Reich-Moore range, as long as each J of an orbital momentum keeps one. From an R-matrix-limited range (in the cases of C70) resonances that have a capture width only may be left out. The older code has the same properties without these restrictions (its multi-level formalism up to the rounding of its decimals).", "quantifier": "all spin groups and compound systems with any number of channels and resonances left out, all energies, both boundary conditions, all Coulomb libraries; all Breit-Wigner, Reich-Moore and R-matrix-limited ranges with any number of orbital momenta and resonances", "why_tests_cant": "It compares two evaluations for all channels, widths and energies; the conversion of ENDF evaluations relies on it when it makes no channel for widths that are all zero, and so does anyone who adds the channels of a threshold reaction.", "anchors": ["src/resonanceReconstruction/rmatrix/SpinGroup/src/evaluate.hpp", "src/resonanceReconstruction/rmatrix/SpinGroup/src/evaluateTMatrix.hpp", "src/resonanceReconstruction/rmatrix/Resonance/src/rmatrix.hpp", "src/resonanceReconstruction/rmatrix/Channel/src/belowThreshold.hpp", "src/resonanceReconstruction/rmatrix/CompoundSystem/src/evaluate.hpp", "src/resonanceReconstruction/rmatrix/legacy/resolved/SpinGroup/SingleLevelBreitWigner/src/evaluate.hpp", "src/resonanceReconstruction/rmatrix/legacy/resolved/SpinGroup/MultiLevelBreitWigner/src/evaluate.hpp", "src/resonanceReconstruction/rmatrix/legacy/CompoundSystemBase/src/evaluate.hpp", "src/resonanceReconstruction/rmatrix/src/makeReichMooreCompoundSystem.hpp", "src/resonanceReconstruction/breitWigner/singleLevel/Base/src/evaluate.hpp", "src/resonanceReconstruction/breitWigner/multiLevel/Base/src/evaluate.hpp", "src/resonanceReconstruction/reichMoore/Base/src/evaluate.hpp", "src/resonanceReconstruction/rmatrix/src/makeCompoundSystem.hpp"]}
{"id": "C78", "title": "A spin group of independent parts has the sum of their cross sections", "statement": "If the channels and the resonances of a spin group are those of two others, in any order, and no resonance has widths in open channels of both, then evaluating the spin group is the same as evaluating the two one after the other: it succeeds if and only if they do and gives the same map. A part that has no incident channel adds nothing and may be left out. If no channel identifier contains the arrow of the keys, the spin group has a T-matrix if and only if both parts have one; its elements between channels of one part are those of the part, and those between the parts are zero.", "quantifier": "all spin groups with any number of channels and resonances, all ways to split them, all energies, both boundary conditions, all Coulomb libraries", "why_tests_cant": "It compares three evaluations for all channels, widths and energies. Evaluations may give the channels of different channel spins in one spin group or in several, and users rely on the same result.", "anchors": ["src/resonanceReconstruction/rmatrix/SpinGroup/src/evaluate.hpp", "src/resonanceReconstruction/rmatrix/Resonance/src/rmatrix.hpp", "src/resonanceReconstruction/rmatrix/RLMatrixCalculator/ReichMoore/src/call.hpp", "src/resonanceReconstruction/rmatrix/SpinGroup/src/evaluateTMatrix.hpp"]}
{"id": "C79", "title": "The two kinds of boundary conditions agree where they give the same numbers", "statement": "At an energy at which the shift factors of all channels have values and the boundary condition of every open channel is its shift factor, evaluation with the boundary conditions of the channels and evaluation with the shift factors as boundary conditions both succeed or both fail and give the same cross sections. For photon and fission channels and s-waves of neutrons with zero as boundary condition this is every energy. The same holds for the T-matrix of spin groups and compound systems whose channel identifiers do not contain the arrow of the keys.", "quantifier": "all spin groups and compound systems, all energies and Coulomb libraries", "why_tests_cant": "The two kinds are different instantiations of templates, compared by tests for single evaluations only; the claim relates them for all channels and resonances.", "anchors": ["src/resonanceReconstruction/rmatrix/LMatrixCalculator/Constant/src/call.hpp", "src/resonanceReconstruction/rmatrix/LMatrixCalculator/ShiftFactor/src/call.hpp", "src/resonanceReconstruction/rmatrix/SpinGroup/src/evaluate.hpp", "src/resonanceReconstruction/rmatrix/Channel/src/shiftFactor.hpp", "src/resonanceReconstruction/rmatrix/SpinGroup/src/evaluateTMatrix.hpp"]}
{"id": "C80", "title": "Cross sections are continuous functions of the resonance parameters", "statement": "If a spin group or compound system can be evaluated at an energy then, for every tolerance, all those with the same channels and sufficiently close resonance energies, widths and eliminated widths are accepted and can be evaluated at that energy too, and report the same reactions with cross sections within the tolerance. In particular rounding resonance parameters finely enough changes no cross section noticeably. The same holds for Breit-Wigner groups and systems, single- and multi-level, and for the average parameters of the unresolved region as long as no fission or competitive width changes between zero and another value. The elements of the T-matrix of a compound system are continuous functions of the resonance parameters in the same sense.", "quantifier": "all spin groups and compound systems with any channels and resonances, all energies, both boundary conditions, both Breit-Wigner formalisms, all tables of average parameters, all Coulomb libraries, all tolerances", "why_tests_cant": "Continuity is a statement about all parameters in a neighbourhood and all tolerances; tests compare single sets of parameters.", "anchors": ["src/resonanceReconstruction/rmatrix/SpinGroup/src/evaluate.hpp", "src/resonanceReconstruction/rmatrix/CompoundSystem/src/evaluate.hpp", "src/resonanceReconstruction/rmatrix/Resonance/src/rmatrix.hpp", "src/resonanceReconstruction/rmatrix/RLMatrixCalculator/ReichMoore/src/call.hpp", "src/resonanceReconstruction/rmatrix/ResonanceTable/src/verifyTable.hpp", "src/resonanceReconstruction/rmatrix/legacy/resolved/SpinGroup/SingleLevelBreitWigner/src/evaluate.hpp", "src/resonanceReconstruction/rmatrix/legacy/resolved/SpinGroup/MultiLevelBreitWigner/src/evaluate.hpp", "src/resonanceReconstruction/rmatrix/legacy/unresolved/SpinGroup/src/evaluate.hpp", "src/resonanceReconstruction/rmatrix/legacy/CompoundSystemBase/src/evaluate.hpp", "src/resonanceReconstruction/rmatrix/SpinGroup/src/evaluateTMatrix.hpp", "src/resonanceReconstruction/rmatrix/CompoundSystem/src/evaluateTMatrix.hpp"]}
{"id": "C81", "title": "Wigner's threshold law: a reaction that emits neutrons with angular momentum l grows with the power l + 1/2 of the energy above its threshold", "statement": "Suppose a spin group, compound system, reconstructor of one or R-matrix-limited range can be evaluated at the energy at which all channels of a reaction open, these being neutron channels other than the incident ones with angular momenta of at least l. Then the cross section of the reaction is zero at that energy, evaluation succeeds at all energies just above, and the cross section divided by (E - E0)^(l+1/2) approaches pi/k^2 g times the sum of 4 P_c |M_cc'|^2 (k1 a)^(2l+1)/((2l-1)!!)^2 over the incident channels c and the channels c' of the reaction with angular momentum l, where M = (1 - R L)^-1 R at the threshold and k1 is the wave number one unit of energy above it. With a single resonance that has widths in such channels the limit is positive. An R-matrix-limited range can be evaluated at thresholds other than that of elastic scattering if the channels that open there have the boundary conditions of the threshold, where boundary conditions are used.", "quantifier": "all spin groups and compound systems of neutral channels with continuous radii, all resonances, all threshold energies, both boundary conditions, all angular momenta, all states of the caches, all tolerances, all R-matrix-limited ranges with neutral particles", "why_tests_cant": "A limit is a statement on infinitely many energies; a test sees single energies and cannot tell one power law from another.", "anchors": ["src/resonanceReconstruction/rmatrix/SpinGroup/src/evaluate.hpp", "src/resonanceReconstruction/rmatrix/CompoundSystem/src/evaluate.hpp", "src/resonanceReconstruction/rmatrix/Channel/src/belowThreshold.hpp", "src/resonanceReconstruction/rmatrix/Channel/src/waveNumber.hpp", "src/resonanceReconstruction/rmatrix/src/calculatePenetrability.hpp", "src/resonanceReconstruction/rmatrix/src/fromENDF.hpp", "src/resonanceReconstruction/rmatrix/src/makeCompoundSystem.hpp"]}
{"id": "C82", "title": "The expansions of the irregular Coulomb function satisfy the Coulomb wave equation", "statement": "For strong Coulomb fields the value G0 and the derivative G0' that the library's wave functions start from come from asymptotic expansions. Wherever these are used directly (eta >= 15 and 16 < rho < 5 eta/3 - 5, or 5 <= eta < 15 and rho > 2.5 eta + 7.5), the returned G' is the derivative of the returned G within one part in 5000 of |G| + |G'|, and G satisfies G'' = (2 eta/rho - 1) G within one part in 1000 of the size of its terms. This fails for the second region, where G' is off by up to one part in 80.", "quantifier": "all Sommerfeld parameters and channel ratios in the two regions", "why_tests_cant": "It concerns a derivative and a differential equation, for all of a two-dimensional region of real arguments; the coefficients of the expansions have up to 14 digits and tests of a few values cannot tell a wrong one of high order from the truncation error.", "anchors": ["src/resonanceReconstruction/rmatrix/src/coh3-asympt.hpp", "src/resonanceReconstruction/rmatrix/src/coh3-extwave.hpp", "src/resonanceReconstruction/rmatrix/src/coh3-coulomb.hpp"]}
{"id": "C83", "title": "In weak Coulomb fields the irregular function satisfies the Coulomb wave equation", "statement": "For 0 < eta < 5 and rho > 2 eta + 10 the library takes G0 and G0' from a series in 1/rho that it stops at its smallest term (after at most 100 terms). There the returned G' is exactly the derivative of the returned G, and G satisfies G'' = (2 eta/rho - 1) G within one part in 10000 of the size of its terms, except at most 100 values of rho for each eta, those with (2 (k+1) rho)^2 = (eta^2 + k^2)(eta^2 + (k+1)^2) for a whole number k < 100, at which the number of terms changes.", "quantifier": "all Sommerfeld parameters between 0 and 5 and all channel ratios beyond 2 eta + 10 but the exceptions", "why_tests_cant": "It concerns a derivative and a differential equation, for all of an unbounded two-dimensional region of real arguments, and a loop whose length depends on the arguments; a term that is missing or wrong in one of its recurrences may show only where many terms are taken.", "anchors": ["src/resonanceReconstruction/rmatrix/src/coh3-asympt.hpp", "src/resonanceReconstruction/rmatrix/src/coh3-extwave.hpp", "src/resonanceReconstruction/rmatrix/src/coh3-coulomb.hpp"]}
{"id": "C84", "title": "At large distances the irregular Coulomb function is the cosine of the Coulomb phase", "statement": "For 0 <= eta < 15 and angular momenta up to 58, the returned G and G' are, at all sufficiently large rho at which functions are returned, within one part in a million the real part and minus the imaginary part of the outgoing Coulomb wave exp i(rho - eta log 2 rho - l pi/2 + sigma), where sigma is the argument of the gamma function at l + 1 + i eta. There are arbitrarily large rho at which functions are returned.", "quantifier": "all Sommerfeld parameters from 0 up to 15, all angular momenta up to 58, all sufficiently large channel ratios", "why_tests_cant": "It is a limit, and relates the phase that the code computes with truncated series for all eta to the gamma function; a wrong coefficient of a series or a lost term of the phase changes the functions by the same small angle at all distances, which comparisons of G at a few points to a few digits do not show.", "anchors": ["src/resonanceReconstruction/rmatrix/src/coh3-coulomb.hpp", "src/resonanceReconstruction/rmatrix/src/coh3-asympt.hpp", "src/resonanceReconstruction/rmatrix/src/coh3-extwave.hpp"]}
{"id": "C85", "title": "Charged-particle channels without Coulomb field have the penetrabilities and shift factors of neutron channels", "statement": "With a Sommerfeld parameter of zero, the penetrability and the shift factor of a charged-particle channel, which come from the Coulomb wave functions, agree with the formulas for neutron channels within one part in 100000, for all channel ratios and all angular momenta that these have. This holds for channel ratios up to 48. It fails for large channel ratios: for every angular momentum up to 58 and every Sommerfeld parameter from 0 up to 15 there are arbitrarily large channel ratios at which the penetrability is less than half or more than twice the channel ratio that it should approach.", "quantifier": "all channel ratios, angular momenta up to 4 (up to 58 for the failure), all Sommerfeld parameters from 0 up to 15 for the failure", "why_tests_cant": "The regular function is found by a downward recurrence from an order that the upward recurrence chooses; its error depends on the channel ratio in a way that no finite set of points shows, and it fails for large arguments only.", "anchors": ["src/resonanceReconstruction/rmatrix/src/calculatePenetrability.hpp", "src/resonanceReconstruction/rmatrix/src/calculateShiftFactor.hpp", "src/resonanceReconstruction/rmatrix/src/coh3-extwave.hpp", "src/resonanceReconstruction/rmatrix/src/coh3-coulomb.hpp"]}
{"id": "C86", "title": "Distant and weak resonances have little effect", "statement": "If a spin group or a compound system can be evaluated at an energy then, for every tolerance, adding any number of further resonances to its spin groups leaves it evaluable there and changes no cross section by more than the tolerance, provided that their total strength there, the sum over the resonances of the squared reduced width amplitudes divided by |E_r - E - i gamma_r^2|, is small enough. In particular one resonance with given widths has no effect in the limit of its energy going to plus or minus infinity, and a resonance at another energy has none in the limit of vanishing widths. The same holds for the elements of the T-matrix of a compound system.", "quantifier": "all spin groups and compound systems and energies at which they can be evaluated, any number of further resonances, all tolerances", "why_tests_cant": "It is a limit in parameters that are unbounded in number and size; evaluations are truncated on the strength of it, and tests with a few resonances cannot show that no combination of distant ones matters.", "anchors": ["src/resonanceReconstruction/rmatrix/SpinGroup/src/evaluate.hpp", "src/resonanceReconstruction/rmatrix/RLMatrixCalculator/ReichMoore/src/call.hpp", "src/resonanceReconstruction/rmatrix/Resonance/src/rmatrix.hpp", "src/resonanceReconstruction/rmatrix/CompoundSystem/src/evaluate.hpp", "src/resonanceReconstruction/rmatrix/SpinGroup/src/evaluateTMatrix.hpp", "src/resonanceReconstruction/rmatrix/CompoundSystem/src/evaluateTMatrix.hpp"]}
{"id": "C87", "title": "The choice of boundary conditions does not matter", "statement": "With the boundary conditions of the evaluation (not the shift factors), a spin group or a compound system whose boundary conditions B are replaced by any B', and whose resonances with energies e and reduced width amplitudes gamma (a matrix) are replaced by those with gamma' = Q gamma and e' = Q (e - gamma (B' - B) gamma^T) Q^T, Q orthogonal, has the same cross sections and the same T-matrix elements at every energy at which the former can be evaluated, which is not a pole of the new parameters, and at which all channels whose boundary condition changes are open. The resonances of a spin group need to have one and the same width of the eliminated capture channel; then such parameters exist for all B'. For a single resonance only the energy changes.", "quantifier": "all spin groups and compound systems with equal eliminated widths in each spin group, all new boundary conditions, all energies as stated", "why_tests_cant": "It is an identity between two evaluations with all parameters changed, for any number of resonances and channels; evaluations are converted from one convention to the other on the strength of it, and a sign or index error in the treatment of the boundary condition does not show where it equals the shift factor.", "anchors": ["src/resonanceReconstruction/rmatrix/RLMatrixCalculator/ReichMoore/src/call.hpp", "src/resonanceReconstruction/rmatrix/LMatrixCalculator/Constant.hpp", "src/resonanceReconstruction/rmatrix/SpinGroup/src/evaluate.hpp", "src/resonanceReconstruction/rmatrix/CompoundSystem/src/evaluate.hpp", "src/resonanceReconstruction/rmatrix/SpinGroup/src/evaluateTMatrix.hpp", "src/resonanceReconstruction/rmatrix/CompoundSystem/src/evaluateTMatrix.hpp"]}
{"id": "C88", "title": "An evaluation that throws does no harm", "statement": "When an evaluation throws an exception (an orbital angular momentum or an energy that is not provided for), the map of the caller contains what it contained before the call, and the object can be used further: every later evaluation gives what it would have given without the failed call. The first part holds for single spin groups, and for reconstructors, whose map is new in every call. It fails for compound systems, which add up their spin groups in the map of the caller: the map then contains exactly the contributions of the spin groups before the one that throws, and no part of one.", "quantifier": "all spin groups, compound systems and reconstructors, all energies, all maps of the caller, all sequences of calls", "why_tests_cant": "The ranges are evaluated lazily, so that an exception may come in the middle of the loops that write to the map, for any channel and any energy; what is left behind depends on the order of all these evaluations, and tests of exceptions only look at the exception.", "anchors": ["src/resonanceReconstruction/rmatrix/SpinGroup/src/evaluate.hpp", "src/resonanceReconstruction/rmatrix/SpinGroup/src/evaluateTMatrix.hpp", "src/resonanceReconstruction/rmatrix/SpinGroup/src/omegas.hpp", "src/resonanceReconstruction/rmatrix/RLMatrixCalculator/ReichMoore/src/call.hpp", "src/resonanceReconstruction/rmatrix/LMatrixCalculator/Constant/src/call.hpp", "src/resonanceReconstruction/rmatrix/CompoundSystem/src/evaluate.hpp", "src/resonanceReconstruction/rmatrix/legacy/CompoundSystemBase/src/evaluate.hpp", "src/resonanceReconstruction/rmatrix/Reconstructor.hpp"]}
{"id": "C89", "title": "Slow neutrons in Breit-Wigner ranges: the 1/v law and a constant elastic cross section", "statement": "For a single-level or multi-level Breit-Wigner spin group, compound system or ENDF range at low energies E > 0, capture and fission multiplied with the square root of the energy approach pi a / k(1) times the sum over the s-wave resonances of g_J (Gamma_n/P) Gamma_x / (E'^2 + Gamma^2/4), where a is the channel radius and k(1) is the wave number at the unit of energy; the resonances of other partial waves do not contribute. The elastic cross section approaches 4 pi b^2, b the scattering radius of the first l value with resonances, and the sum over J of 4 pi g_J (|b - a/2 L|^2 - b^2), where L is the sum of (Gamma_n/P) / (E' - i Gamma/2) over the s-wave resonances with this J for the multi-level formalism, and is taken separately for each resonance for the single-level formalism. There are cross sections at all sufficiently small positive energies. Widths and positions in the limits are those at the energy zero, with the penetrability of the competitive channel there.", "quantifier": "all Breit-Wigner spin groups, compound systems and ENDF ranges that make sense physically, with radii that are continuous at the energy zero, both formalisms, all sufficiently small energies", "why_tests_cant": "It is a limit for any number of resonances, l values and spins; thermal cross sections rely on it, and both the wave number and the penetrability vanish there so that a wrong power or factor only shows in the limit.", "anchors": ["src/resonanceReconstruction/rmatrix/legacy/resolved/SpinGroup/SingleLevelBreitWigner/src/evaluate.hpp", "src/resonanceReconstruction/rmatrix/legacy/resolved/SpinGroup/MultiLevelBreitWigner/src/evaluate.hpp", "src/resonanceReconstruction/rmatrix/legacy/CompoundSystemBase/src/evaluate.hpp", "src/resonanceReconstruction/rmatrix/src/makeLegacyBreitWignerCompoundSystem.hpp"]}
{"id": "C90", "title": "Detailed balance: cross sections of a reaction and its inverse", "statement": "If the same compound nucleus is described once with the incident pair a and once with the incident pair b (the channels constructed with the other incident pair, Q values reduced by Q, the resonance energies and squared amplitudes converted to the other laboratory system, radii as functions of the corresponding energy), then, whenever the first description can be evaluated at E, the second one can be evaluated at the corresponding energy E' with m_b E' = m_a E + Q (m the mass ratios), and k_a^2 (2i_a+1)(2I_a+1) sigma(a->b) = k_b^2 (2i_b+1)(2I_b+1) sigma(b->a). The constructor accepts the second spin group if and only if there is a channel of the pair b. The T-matrix belongs to the compound nucleus: both descriptions give the same map of elements at corresponding energies, for spin groups and for compound systems.", "quantifier": "all spin groups and compound systems, any number of channels and resonances, both boundary condition options, all energies that are not the threshold of b, all starting maps", "why_tests_cant": "It relates two runs with different input; the symmetry of the collision matrix, the kinematic factors, the spin factors, the assignment of reactions to channels, and the conversion of energies all have to be right in both directions, for any number of channels.", "anchors": ["src/resonanceReconstruction/rmatrix/SpinGroup/src/evaluate.hpp", "src/resonanceReconstruction/rmatrix/SpinGroup/src/determineIncidentChannels.hpp", "src/resonanceReconstruction/rmatrix/SpinGroup/src/ctor.hpp", "src/resonanceReconstruction/rmatrix/Channel/src/ctor.hpp", "src/resonanceReconstruction/rmatrix/Channel/src/waveNumber.hpp", "src/resonanceReconstruction/rmatrix/Channel/src/belowThreshold.hpp", "src/resonanceReconstruction/rmatrix/Channel.hpp", "src/resonanceReconstruction/rmatrix/CompoundSystem/src/evaluate.hpp", "src/resonanceReconstruction/rmatrix/RLMatrixCalculator/ReichMoore/src/call.hpp", "src/resonanceReconstruction/rmatrix/SpinGroup/src/evaluateTMatrix.hpp", "src/resonanceReconstruction/rmatrix/CompoundSystem/src/evaluateTMatrix.hpp"]}
{"id": "C91", "title": "The same evaluation in the Reich-Moore and in the R-matrix-limited format gives the same cross sections", "statement": "Take an ENDF range in the Reich-Moore format (LRF = 3, no table of radii) for a target without spin and with one fission channel, and write it in the R-matrix-limited format (LRF = 7, KRM = 3): particle pairs for capture, elastic scattering and fission in this order, a spin group for each l below NLSC and each J, with the same resonances and widths and the same radii, the shift factor as the boundary condition. If both are accepted, both give the same cross sections at every energy in the ranges at which both can be evaluated: elastic, capture, fission, and nothing else that is not zero. An evaluation that makes sense physically is accepted in both formats and can be evaluated at all positive energies that are not those of a resonance without capture width.", "quantifier": "all Reich-Moore evaluations of this kind, any number of resonances, NAPS = 0 or 1, all energies in the ranges, all Q values of capture and fission that are not negative", "why_tests_cant": "Two separate parts of the code convert the two formats, with different conventions for widths, radii, channels without resonances and the order of the channels; evaluators convert from one format to the other and rely on the result being the same for every resonance and energy, of which tests sample a few.", "anchors": ["src/resonanceReconstruction/rmatrix/src/makeReichMooreCompoundSystem.hpp", "src/resonanceReconstruction/rmatrix/src/makeCompoundSystem.hpp", "src/resonanceReconstruction/rmatrix/src/fromENDF.hpp", "src/resonanceReconstruction/rmatrix/SpinGroup/src/evaluate.hpp"]}
{"id": "C92", "title": "Cross sections do not depend on the system of units", "statement": "Let all data of an evaluation be converted to other units of energy, length, mass and charge, with h-bar and the vacuum permittivity converted as well: masses, charges, Q values, channel radii (as functions of the energy), resonance energies, reduced width amplitudes (as square roots of energies), Breit-Wigner widths, and average spacings and widths. The constructors of particles, pairs, channels, spin groups and resonance tables accept the converted data if and only if they accept the original ones. An evaluation at the converted energy succeeds if and only if it does in the old units, and then every cross section is the old one converted to the new unit of area; the elements of the T-matrix are the same, and the energy grids of resolved resonances are the converted grids. This holds for R-matrix spin groups and compound systems, for single and multi-level Breit-Wigner groups and systems (with equal failures and equal state, up to the conversion) and for unresolved groups and systems.", "quantifier": "for all unit factors, constants, Coulomb libraries, energies, channels of all types, radii, resonances, groups, systems, starting maps and states of the caches", "why_tests_cant": "Tests are written in one system of units; a constant with a hidden unit, a missing square root or a wrong power of h-bar shows only if the same evaluation is repeated in all other units. The claim is about all data and all units.", "anchors": ["src/resonanceReconstruction/rmatrix/Channel/src/waveNumber.hpp", "src/resonanceReconstruction/rmatrix/Channel/src/sommerfeldParameter.hpp", "src/resonanceReconstruction/rmatrix/SpinGroup/src/evaluate.hpp", "src/resonanceReconstruction/rmatrix/SpinGroup/src/grid.hpp", "src/resonanceReconstruction/rmatrix/CompoundSystem/src/evaluate.hpp", "src/resonanceReconstruction/rmatrix/legacy/resolved/SpinGroup/SingleLevelBreitWigner/src/evaluate.hpp", "src/resonanceReconstruction/rmatrix/legacy/resolved/SpinGroup/MultiLevelBreitWigner/src/evaluate.hpp", "src/resonanceReconstruction/rmatrix/legacy/unresolved/SpinGroup/src/evaluate.hpp", "src/resonanceReconstruction/rmatrix/legacy/CompoundSystemBase/src/evaluate.hpp"]}
{"id": "C93", "title": "The order in which an evaluation lists its data does not matter", "statement": "Take an ENDF range and list its l values, J values, spin groups and the resonances within them in another order. If both are accepted, both give the same cross sections at every energy of the range at which both can be evaluated (a reaction that is not reported counts as zero). An evaluation that makes sense physically is accepted in every order, and can then be evaluated at the same energies in every order. The l values of single-level, multi-level, Reich-Moore and unresolved evaluations have to give the same mass, Reich-Moore levels of a spin group and R-matrix levels have to have different energies, and R-matrix spin groups have to be of the kind for which C70 is proved. The older code also gives the same cross sections in every order, the multi-level elastic cross section up to the rounding of decimals in its code.", "quantifier": "all single-level and multi-level Breit-Wigner, Reich-Moore, R-matrix-limited and unresolved ranges (three forms of data), all permutations of l values, J values, spin groups and resonances, all energies in the range, and the resolved ones of these also with the older code", "why_tests_cant": "There are as many orders as permutations; the conversion groups resonances by J and l as they come and the cross sections are sums in that order, so that a resonance that is lost, taken twice or put into the wrong group for one particular order would not be seen by tests that use the order of the evaluated files.", "anchors": ["src/resonanceReconstruction/rmatrix/src/fromENDF.hpp", "src/resonanceReconstruction/rmatrix/src/makeLegacyBreitWignerCompoundSystem.hpp", "src/resonanceReconstruction/rmatrix/src/makeLegacyUnresolvedCompoundSystem.hpp", "src/resonanceReconstruction/rmatrix/src/makeReichMooreCompoundSystem.hpp", "src/resonanceReconstruction/rmatrix/src/makeCompoundSystem.hpp", "src/resonanceReconstruction/rmatrix/legacy/CompoundSystemBase/src/evaluate.hpp", "src/resonanceReconstruction/rmatrix/SpinGroup/src/evaluate.hpp", "src/resonanceReconstruction/reichMoore/Base/src/evaluate.hpp", "src/resonanceReconstruction/reichMoore/Lvalue/src/call.hpp", "src/resonanceReconstruction/breitWigner/singleLevel/Apply.hpp", "src/resonanceReconstruction/breitWigner/multiLevel/Apply.hpp"]}
{"id": "C94", "title": "The directions of the two fission channels do not matter", "statement": "The two fission widths of a resonance in a Reich-Moore evaluation stand for a vector, the components of which are the square roots of the widths with the sign of the width. Turn or reflect these vectors by an orthogonal matrix, one for each l and J. If both evaluations are accepted, then all cross sections are the same at every energy of the range at which both can be evaluated, with the newer code and with the older one. In particular the two fission widths can be exchanged, and where all the vectors are parallel one fission channel with the full width gives the same cross sections as two. An evaluation that makes sense physically is accepted for all directions and can be evaluated at the same energies.", "quantifier": "all Reich-Moore evaluations with different resonance energies in each spin group (any energies in the older code), all orthogonal matrices, all energies in the range, any number of resonances and l values", "why_tests_cant": "The directions of the fission channels are a convention, evaluations are fitted with any of them; the code decides from zero widths which fission channels to use and inverts matrices of different sizes with and without them, so that the claim relates different branches for a continuum of rotations.", "anchors": ["src/resonanceReconstruction/rmatrix/src/makeReichMooreCompoundSystem.hpp", "src/resonanceReconstruction/rmatrix/src/fromENDF.hpp", "src/resonanceReconstruction/rmatrix/SpinGroup/src/evaluate.hpp", "src/resonanceReconstruction/reichMoore/Base/src/evaluate.hpp", "src/resonanceReconstruction/reichMoore/Lvalue/src/call.hpp", "src/resonanceReconstruction/reichMoore/Apply/src/lvalue.hpp"]}
{"id": "C95", "title": "The bounds of a range only decide where it answers", "statement": "Take an ENDF range and give it other bounds. It is accepted if and only if it was, it is resolved if and only if it was, and at every energy within both bounds it reports the same cross sections or fails in the same way. The two grids have the same points within both bounds. A range that is split at an energy therefore gives the cross sections of the whole range, and the grids of the parts are the parts of the grid. For average parameters that do not depend on the energy (which the code turns into a table from the lower to the upper bound) the cross sections within both bounds are the same if both are accepted, and those that make sense physically are accepted with all bounds.", "quantifier": "all ENDF ranges of all formats, all bounds, all energies", "why_tests_cant": "It relates the range with every other choice of bounds, for all parameters and energies; resonances outside of the bounds have to contribute, and tests only use the bounds of a few evaluations.", "anchors": ["src/resonanceReconstruction/rmatrix/Reconstructor.hpp", "src/resonanceReconstruction/rmatrix/src/fromENDF.hpp", "src/resonanceReconstruction/rmatrix/src/makeLegacyUnresolvedCompoundSystem.hpp", "src/resonanceReconstruction/rmatrix/src/makeLegacyUnresolvedResonanceTable.hpp"]}
{"id": "C96", "title": "The form in which average parameters are given does not matter", "statement": "There are three forms for the average parameters of an unresolved range: constant parameters, fission widths that depend on the energy, and tables for all parameters. Parameters of the first forms can be written in the others. If both are accepted, then both give the same cross sections at all energies of the range at which both can be evaluated. Rows of a table that are interpolated between its other rows can be left out without any change. Parameters that make sense physically are accepted in all forms.", "quantifier": "all average parameters with one mass, all tables with ascending energies, all energies of the range, any number of l values, J values and rows", "why_tests_cant": "The three forms are converted by three functions with different arguments, and tables with different energies are interpolated in different intervals; it is a statement about all pairs of tables for the same data.", "anchors": ["src/resonanceReconstruction/rmatrix/src/fromENDF.hpp", "src/resonanceReconstruction/rmatrix/src/makeLegacyUnresolvedCompoundSystem.hpp", "src/resonanceReconstruction/rmatrix/src/makeLegacyUnresolvedResonanceTable.hpp", "src/resonanceReconstruction/rmatrix/src/makeLegacyUnresolvedSpinGroups.hpp"]}
{"id": "C97", "title": "How the spins are coupled does not matter", "statement": "In a spin group, call channels indistinguishable if they have the same particles, reaction, Q value, orbital angular momentum, radii and boundary condition, for example channels with different channel spins, or several channels of fission. Replace the reduced width amplitudes of indistinguishable channels by orthogonal combinations, the same for all resonances. Then the spin group computes the same cross sections for all reactions, at every energy and for both boundary options, and a call succeeds if and only if it did before. The same holds for a compound system, with a combination of its own for each spin group. The elements of the T-matrix are combined in the same way as the channels. In a spin group with one resonance, only the sum of the squared amplitudes of indistinguishable channels matters.", "quantifier": "all spin groups and compound systems, any number of channels and resonances, all orthogonal matrices, all energies, both boundary options, all channel types", "why_tests_cant": "It is a continuous symmetry of the computation; a term that is missing or taken twice in the sum over channels of the same reaction, or a value taken from the wrong channel, breaks it for all rotations, while tests compare the numbers of a few fixed choices.", "anchors": ["src/resonanceReconstruction/rmatrix/SpinGroup/src/evaluate.hpp", "src/resonanceReconstruction/rmatrix/SpinGroup/src/evaluateTMatrix.hpp", "src/resonanceReconstruction/rmatrix/CompoundSystem/src/evaluate.hpp", "src/resonanceReconstruction/rmatrix/Resonance/src/rmatrix.hpp"]}
{"id": "C98", "title": "The numerical integration of the irregular Coulomb function is accurate outside of the turning point", "statement": "For Sommerfeld parameters below 15 and channel ratios below 2 eta + 10 (eta < 5) or 2.5 eta + 7.5 (eta >= 5), the library obtains the irregular function G and its derivative G' for angular momentum zero by integrating the Coulomb wave equation inward from that radius, where an expansion gives their values. At all channel ratios from there down to 2 eta + 1, the returned G and G' differ from the exact solution of the wave equation through the values at the radius of the expansion by at most one part in 1000 of the amplitude of the solution (and 1e-8), measured as the root of (delta G')^2 + (1 - 2 eta/rho) (delta G)^2; or the integration gives up, which it shows by returning zeros. Such an exact solution exists for any values at the start.", "quantifier": "all Sommerfeld parameters between 0 and 15, all channel ratios from 2 eta + 1 up to the radius of the expansion, all exact solutions", "why_tests_cant": "It compares up to 1400 steps of an implicit integration, each of which iterates to a tolerance, with the solution of a differential equation, over a two-dimensional region of real arguments; a wrong coefficient in the scheme changes its order and not its consistency, so that a few compared values still agree to several digits.", "anchors": ["src/resonanceReconstruction/rmatrix/src/coh3-asympt.hpp", "src/resonanceReconstruction/rmatrix/src/coh3-coulomb.hpp", "src/resonanceReconstruction/rmatrix/src/coh3-extwave.hpp"]}
{"id": "C99", "title": "In weak Coulomb fields the irregular function is that of Coulomb wave theory", "statement": "The irregular Coulomb function of angular momentum zero is the solution of the Coulomb wave equation that far from the origin becomes the cosine of rho - eta log 2 rho + sigma, where sigma is the argument of the gamma function at 1 + i eta. It exists, it is unique, and outside of the turning point its amplitude, the root of G'^2 + (1 - 2 eta/rho) G^2, is at most 1. For 0 < eta < 5 the G and G' that the library returns for angular momentum zero are those of this function: for rho >= 2 eta + 10 within 1e-6, measured as the amplitude of the difference, and for 2 eta + 1 <= rho <= 2 eta + 10 within 0.0011, unless the integration gives up (zeros are returned) or the function or its derivative is below 2e-6 at rho = 2 eta + 10.", "quantifier": "all Sommerfeld parameters between 0 and 5, all channel ratios from 2 eta + 1 on, without an upper bound", "why_tests_cant": "The reference is a function that is defined by its behaviour at infinity. A divergent series that is cut off at a term that depends on the arguments, a phase from a truncated series of Stirling and a numerical integration have to fit together over an unbounded two-dimensional region; tests compare with tables at a few points.", "anchors": ["src/resonanceReconstruction/rmatrix/src/coh3-asympt.hpp", "src/resonanceReconstruction/rmatrix/src/coh3-coulomb.hpp", "src/resonanceReconstruction/rmatrix/src/coh3-extwave.hpp"]}
{"id": "C100", "title": "Width fluctuations enhance elastic scattering and reduce reactions", "statement": "Without fluctuations of the widths, the average cross section for a reaction with width G_c would be proportional to G_n G_c / T, where T is the sum of the average widths. The unresolved evaluation multiplies this with a width fluctuation factor. For widths that are not negative, up to the accuracy of the quadrature (2%): the factor of compound elastic scattering is never less than 1, and without fission and competition it is at most 1 + (2/nu_n) G_gamma/T. The factor of capture is at least 1/(1 + 2 G_n/(nu_n T)), and at most 1 if there is no fission and competition. The factor of fission is at least 1/(1 + 2 G_n/(nu_n T) + 2 G_f/(nu_f T)), and at most 1 if there is no competition, and the same holds for competition with the roles exchanged. With fission the factor of capture may be more than 1 (more than 10, for example), but the capture integral is never more than 1/(G_n + G_gamma). These bounds carry over to the elastic, capture and fission cross sections that a spin group adds.", "quantifier": "all widths that are not negative, one to four degrees of freedom for each width, all energies, all spin groups", "why_tests_cant": "It is a set of inequalities for all real widths, over four branches of the code with sums of 10, 100 and 1000 terms; an exchanged pair of indices or columns keeps the sums plausible, and tests compare a few values.", "anchors": ["src/resonanceReconstruction/rmatrix/legacy/unresolved/src/calculateFluctuationIntegrals.hpp", "src/resonanceReconstruction/rmatrix/legacy/unresolved/SpinGroup/src/evaluate.hpp"]}
{"id": "C101", "title": "The optical theorem and the limits of unitarity in Breit-Wigner ranges", "statement": "Under the single-level formalism the elastic, capture and fission cross sections that a group of resonances adds, its hard-sphere term and the competitive reaction (which is not reported) sum to 2 pi/k^2 g (1 - Re U), where U is the collision function of all resonances of the group. A group with n resonances adds at most n pi/k^2 g to capture and fission together under both formalisms, and has at most pi/k^2 g (2|sin phi| + 2n)^2 of elastic scattering under the multi-level formalism. A group with one resonance therefore respects the limits of unitarity: its collision function is at most one in magnitude and all its cross sections together are at most 4 pi/k^2 g. Groups with more resonances need not: the bounds are attained for every n, and two resonances exceed the limits under both formalisms.", "quantifier": "all neutron groups with any number of resonances with non-negative widths (the optical theorem: any widths), both formalisms, all energies", "why_tests_cant": "Whether cross sections stay physical when resonances overlap is a question on all resonance parameters and energies; the tests compare a few values with reference values.", "anchors": ["src/resonanceReconstruction/rmatrix/legacy/resolved/SpinGroup/SingleLevelBreitWigner/src/evaluate.hpp", "src/resonanceReconstruction/rmatrix/legacy/resolved/SpinGroup/MultiLevelBreitWigner/src/evaluate.hpp", "src/resonanceReconstruction/rmatrix/legacy/resolved/Resonance.hpp"]}
{"id": "C102", "title": "Contributions of Breit-Wigner resonances add, except for the interference between levels", "statement": "Divide the resonances of a group among two groups for the same channel, in any order. The group can be evaluated exactly when both parts can. Capture and fission of the whole are the sums of those of the parts under both formalisms, and so is elastic scattering under the single-level formalism. Under the multi-level formalism elastic scattering has in addition the interference 2 pi/k^2 g Re(X1 X2*), where X = sum of Gn/(E' - E - i G/2) over the resonances of a part, whatever the phase shift is. It is positive when the energy is on the same side of the resonances of both parts, and negative, for instance, between two resonances that are not too close. Resonances without a neutron width change nothing. Resonances that are distant or weak can be left out: with X = sum of Gn/|E - E'| over them, elastic scattering changes by at most pi/k^2 g (4|sin phi| X + X^2 + 4 n X), where n is the number of the other resonances, and capture and fission never increase and decrease by at most pi/k^2 g times the sum of Gn(Gg + Gf)/(E - E')^2.", "quantifier": "all groups with any number of resonances divided in any way, both formalisms, all energies, all states of the cross sections (the bounds and the sign: neutron channels, non-negative widths)", "why_tests_cant": "Whether an evaluation may be split or truncated is a question on all sets of resonances; a test sees particular ones, and a wrong or missing interference term shows only for levels that overlap.", "anchors": ["src/resonanceReconstruction/rmatrix/legacy/resolved/SpinGroup/SingleLevelBreitWigner/src/evaluate.hpp", "src/resonanceReconstruction/rmatrix/legacy/resolved/SpinGroup/MultiLevelBreitWigner/src/evaluate.hpp", "src/resonanceReconstruction/rmatrix/legacy/resolved/Resonance.hpp"]}
{"id": "C103", "title": "The centrifugal barrier", "statement": "The penetrability of a neutron channel increases strictly with the energy above its threshold when its radius does not depend on the energy, and so does the shift factor unless l = 0, where it vanishes. Of two neutron channels with the same particles and the same radius the one with the higher orbital angular momentum has the smaller penetrability, at every energy but that of the threshold, and the smaller shift factor. Far above the barrier the ratio of the penetrability to the channel ratio tends to one and the shift factor to zero for all l.", "quantifier": "all neutron channels with positive masses and radii, all pairs of energies above the threshold, all pairs of orbital angular momenta in 0..4", "why_tests_cant": "Monotony relates all pairs of energies and of channels; a test sees single values, and a wrong coefficient of a polynomial can change them in the digits that are not compared.", "anchors": ["src/resonanceReconstruction/rmatrix/Channel/src/penetrability.hpp", "src/resonanceReconstruction/rmatrix/Channel/src/shiftFactor.hpp", "src/resonanceReconstruction/rmatrix/Channel/src/waveNumber.hpp", "src/resonanceReconstruction/rmatrix/src/calculatePenetrability.hpp", "src/resonanceReconstruction/rmatrix/src/calculateShiftFactor.hpp"]}
{"id": "C104", "title": "Without neutron widths there is only potential scattering", "statement": "If the resonances have no widths in the open incident channels, a spin group adds to the elastic cross section the potential scattering of its incident channels and nothing to any other reaction, whatever the other widths are. A Reich-Moore or Breit-Wigner range of an evaluation in which no resonance has a neutron width, or an unresolved range without average neutron widths, reports the elastic cross section of a hard sphere, pi/k^2 times the sum over l of (2l+1) |1 - exp(2i phi_l)|^2 with the scattering radius of the range, for all l below NLSC (Reich-Moore, if no l value has a radius of its own) or up to the greatest l with resonances (Breit-Wigner, unresolved), and no capture and fission: no partial wave is counted twice or left out, with resonances or not. The older code reports the scattering of a hard sphere in the partial waves that the range lists, each with its radius, and no capture and fission. An R-matrix-limited range (in the cases of C70) without widths in the elastic channels reports the scattering of a hard sphere in these channels, each with its effective radius and the statistical factor of its spin group, and nothing else. The cross sections of a compound system of such spin groups are the sums of their potential scattering, and reactions other than the elastic one get nothing. T-matrix elements from and to a channel that is closed, or in which no resonance has a width, are zero.", "quantifier": "all spin groups, compound systems and maps, all such ranges, tables of radii and energies, both boundary conditions; older code: all evaluations and energies with a result", "why_tests_cant": "The sum over J and channel spins has to give 2l+1 for each l whichever of the J have resonances in the evaluation; tests look at a few nuclides with all J present.", "anchors": ["src/resonanceReconstruction/rmatrix/SpinGroup/src/evaluate.hpp", "src/resonanceReconstruction/rmatrix/src/fromENDF.hpp", "src/resonanceReconstruction/rmatrix/src/makeReichMooreCompoundSystem.hpp", "src/resonanceReconstruction/rmatrix/src/makeQuantumNumbers.hpp", "src/resonanceReconstruction/rmatrix/src/makeLegacyBreitWignerCompoundSystem.hpp", "src/resonanceReconstruction/rmatrix/legacy/resolved/CompoundSystem.hpp", "src/resonanceReconstruction/rmatrix/legacy/unresolved/SpinGroup/src/evaluate.hpp", "src/resonanceReconstruction/reichMoore/Lvalue/src/call.hpp", "src/resonanceReconstruction/breitWigner/singleLevel/Lvalue.hpp", "src/resonanceReconstruction/breitWigner/multiLevel/Lvalue.hpp", "src/resonanceReconstruction/rmatrix/src/makeCompoundSystem.hpp", "src/resonanceReconstruction/rmatrix/SpinGroup/src/evaluateTMatrix.hpp", "src/resonanceReconstruction/rmatrix/CompoundSystem/src/evaluate.hpp"]}
{"id": "C105", "title": "At the turning point the irregular Coulomb function belongs to the published regular one", "statement": "For Sommerfeld parameters of at least 5 the library obtains the irregular Coulomb function G and its derivative at the turning point rho = 2 eta from an expansion, and integrates from there. At rho = 2 eta it returns functions for every such eta; G is positive and falls, and with the expansions of the regular function F and its derivative published with it (Abramowitz and Stegun 14.6.17) the Wronskian F' G - F G' is 1 within 1e-8.", "quantifier": "all Sommerfeld parameters of at least 5", "why_tests_cant": "The expansions have twelve decimal coefficients and fractional powers; a wrong one changes the tested values of a few charges and energies by less than the tolerance, or not at all if the test values were made with the same code.", "anchors": ["src/resonanceReconstruction/rmatrix/src/coh3-asympt.hpp", "src/resonanceReconstruction/rmatrix/src/coh3-extwave.hpp"]}
{"id": "C106", "title": "The Reich-Moore approximation is exact when the photon widths of different resonances are orthogonal", "statement": "Take a spin group with explicit photon (or fission) channels in which the widths of any two different resonances are orthogonal, and the group in which these channels are eliminated: it has the other channels, and the square of the eliminated width of each resonance is that of before plus the sum of the squares of its widths in the channels left out. Whenever the first can be evaluated, so can the second; all other reactions have the same cross sections, and the capture cross section is the sum of the cross sections of the reactions left out and of the capture of before. Elements of the T-matrix between channels that are kept do not change. The same holds for compound systems. Conversely the group with explicit channels can be evaluated when the other one can and the penetrabilities and phases of the channels left out are defined, unless the energy is that of a resonance without an eliminated width.", "quantifier": "all spin groups and compound systems, any number of channels left out and of resonances, all energies at which the channels left out are open, both boundary conditions (boundary condition 0 of the channels left out where it is used), all states of the cross sections and caches", "why_tests_cant": "It compares two evaluations of different size for all resonance parameters; it fixes the normalisation of the eliminated width against that of ordinary widths, which a test with reference values cannot tell from another convention.", "anchors": ["src/resonanceReconstruction/rmatrix/SpinGroup/src/evaluate.hpp", "src/resonanceReconstruction/rmatrix/SpinGroup/src/evaluateTMatrix.hpp", "src/resonanceReconstruction/rmatrix/Resonance/src/rmatrix.hpp", "src/resonanceReconstruction/rmatrix/RLMatrixCalculator.hpp", "src/resonanceReconstruction/rmatrix/CompoundSystem/src/evaluate.hpp", "src/resonanceReconstruction/rmatrix/src/calculatePenetrability.hpp"]}
{"id": "C107", "title": "Unresolved cross sections are averages of Breit-Wigner cross sections", "statement": "Move a single Breit-Wigner resonance with given widths at the energy of the neutron through all positions. The integral of its capture cross section over the position is 2 pi^2/k^2 g Gn Gg/G, that of fission the same with Gf, and that of elastic scattering over a growing interval around the energy approaches 2 pi^2/k^2 g Gn (Gn/G - 2 sin^2 phi), under both formalisms. An unresolved group adds to capture and fission exactly these integrals divided by the mean level spacing and averaged over the distributions of the widths, and to elastic scattering the same up to 0.2% of the interference term.", "quantifier": "all unresolved groups with non-negative average parameters that can be evaluated at the energy, all families of resonances with the widths of the quadrature, all energies, both formalisms, all values of the competitive threshold, all states of the cross sections and of the stored vectors", "why_tests_cant": "It relates two parts of the code that share nothing, the resolved and the unresolved formulas, through an integral over all positions of a resonance; a test cannot integrate, and the two parts are tested on different nuclides.", "anchors": ["src/resonanceReconstruction/rmatrix/legacy/unresolved/SpinGroup/src/evaluate.hpp", "src/resonanceReconstruction/rmatrix/legacy/unresolved/src/calculateFluctuationIntegrals.hpp", "src/resonanceReconstruction/rmatrix/legacy/resolved/SpinGroup/SingleLevelBreitWigner/src/evaluate.hpp", "src/resonanceReconstruction/rmatrix/legacy/resolved/SpinGroup/MultiLevelBreitWigner/src/evaluate.hpp", "src/resonanceReconstruction/rmatrix/legacy/resolved/Resonance.hpp"]}
{"id": "C108", "title": "Between neighbouring resonances scattering vanishes somewhere and reaches the limit of unitarity somewhere", "statement": "Take a spin group that has a single channel and no eliminated widths, and two of its resonances with non-zero widths that have no other resonance between them. If the boundary condition is the shift factor and the hard-sphere phase shift lies between zero and a right angle from the one resonance to the other, then there is an energy between them at which the group can be evaluated and its cross section is exactly zero, and one at which it is exactly 4 pi/k^2 g. For s-wave neutrons and constant radii the conditions on the channel are that it is open at the lower energy, that k a is below pi/2 at the upper one, and that the boundary condition, if it is used, is zero.", "quantifier": "all spin groups with one channel, any number of resonances without eliminated widths, all pairs of neighbouring resonances, all penetrabilities and phase shifts that are continuous functions of the energy", "why_tests_cant": "The energies are not known in advance and depend on all resonances; a test at the points of a grid misses both the minimum and the maximum, which are narrower than any grid for narrow resonances.", "anchors": ["src/resonanceReconstruction/rmatrix/SpinGroup/src/evaluate.hpp", "src/resonanceReconstruction/rmatrix/RLMatrixCalculator/ReichMoore/src/call.hpp", "src/resonanceReconstruction/rmatrix/Resonance/src/rmatrix.hpp", "src/resonanceReconstruction/rmatrix/src/calculatePhaseShift.hpp", "src/resonanceReconstruction/rmatrix/src/calculatePenetrability.hpp"]}
{"id": "C109", "title": "Isolated s-wave resonances mean the same in the Breit-Wigner and the Reich-Moore format", "statement": "An evaluation with s-wave resonances only, at most one for each J and without a competitive channel, can be given as a single-level Breit-Wigner range, as a multi-level Breit-Wigner range or, with the same energies, spins and widths, as a Reich-Moore range whose second fission widths vanish. All three are accepted, and report the same elastic, capture and fission cross sections at every energy of the range.", "quantifier": "all such evaluations that make sense physically, all target spins, radii, energies and numbers of J", "why_tests_cant": "The three formats are evaluated by unrelated code (term by term formulas, a sum of amplitudes, an inverse of a complex matrix with photon channels eliminated); tests of each compare with tabulated values for their own evaluations only.", "anchors": ["src/resonanceReconstruction/rmatrix/src/fromENDF.hpp", "src/resonanceReconstruction/rmatrix/src/makeLegacyBreitWignerCompoundSystem.hpp", "src/resonanceReconstruction/rmatrix/src/makeReichMooreCompoundSystem.hpp", "src/resonanceReconstruction/rmatrix/legacy/resolved/SpinGroup.hpp", "src/resonanceReconstruction/rmatrix/SpinGroup/src/evaluate.hpp"]}
{"id": "C110", "title": "The channel matrix and the level matrix forms of R-matrix theory give the same cross sections", "statement": "The code inverts a matrix with one row for each channel. Whenever a spin group can be evaluated, the matrix with one row for each resonance, (E_l - E - i gamma_l^2) delta_lm - sum over the channels of gamma_lc L_c gamma_mc, is regular too, and the cross sections of all reactions and all elements of the T-matrix are those computed from its inverse, Wigner's level matrix.", "quantifier": "all spin groups with any number of channels and resonances, all energies, both boundary conditions, closed and open channels, all states of the cross sections and caches", "why_tests_cant": "It compares the code with a different formulation of the theory that has other poles, other matrix sizes and no inverse in common; a test compares numbers for a few evaluations with a code that uses the same formulation.", "anchors": ["src/resonanceReconstruction/rmatrix/SpinGroup/src/evaluate.hpp", "src/resonanceReconstruction/rmatrix/SpinGroup/src/evaluateTMatrix.hpp", "src/resonanceReconstruction/rmatrix/RLMatrixCalculator/ReichMoore/src/call.hpp", "src/resonanceReconstruction/rmatrix/Resonance/src/rmatrix.hpp"]}
{"id": "C111", "title": "Cross sections have a limit at the energy of a resonance without capture width", "statement": "At exactly the energy of a resonance without eliminated width a spin group cannot be evaluated: the R-matrix has a pole there. At all other energies close to it evaluation succeeds, whatever was evaluated before, and the cross sections approach a limit, the one given by the level matrix, provided that no other resonance of the group without eliminated width has the same energy and that the resonance has a width in an open channel. The same holds for compound systems and reconstructors, and for Reich-Moore ranges of an evaluation at positive energies, where the resonance only needs a neutron width. The elements of the T-matrix of a spin group and of a compound system behave in the same way.", "quantifier": "all spin groups and compound systems without charged channels, all Reich-Moore ranges that make sense physically, any number of channels and resonances, all energies that are not a threshold and around which the radii are continuous", "why_tests_cant": "The R-matrix grows without bound on both sides of the energy, and only its combination with the inverse of 1 - R L stays finite; a test at some distance cannot tell a finite limit from a divergence that begins closer by.", "anchors": ["src/resonanceReconstruction/rmatrix/SpinGroup/src/evaluate.hpp", "src/resonanceReconstruction/rmatrix/Resonance/src/rmatrix.hpp", "src/resonanceReconstruction/rmatrix/RLMatrixCalculator/ReichMoore/src/call.hpp", "src/resonanceReconstruction/rmatrix/CompoundSystem/src/evaluate.hpp", "src/resonanceReconstruction/rmatrix/src/makeReichMooreCompoundSystem.hpp", "src/resonanceReconstruction/rmatrix/src/fromENDF.hpp", "src/resonanceReconstruction/rmatrix/SpinGroup/src/evaluateTMatrix.hpp"]}
{"id": "C112", "title": "Raising an average width gives more of its reaction and less of the others", "statement": "In the unresolved resonance region the average cross section of a reaction does not fall when the average neutron width and the average width of the reaction rise, and the level spacing and the other average widths fall. In particular more capture width never gives less capture, more fission or more elastic scattering. This holds for the quadrature the code uses, with all its rounded weights, as long as no width changes between zero and positive; it holds for one spin group, for a compound system, and for ENDF unresolved ranges whose average parameters are ordered in each row of their tables.", "quantifier": "for all average widths that are not negative, all degrees of freedom, all neutron channels, energies, radii and spin groups, any number of spin groups, and all cross sections there were before", "why_tests_cant": "Tests compare the cross sections of one set of parameters with reference values; that a change of a parameter works in the right direction is a statement about pairs of evaluations over four widths, four degrees of freedom and up to a thousand quadrature terms.", "anchors": ["src/resonanceReconstruction/rmatrix/legacy/unresolved/src/calculateFluctuationIntegrals.hpp", "src/resonanceReconstruction/rmatrix/legacy/unresolved/SpinGroup/src/evaluate.hpp", "src/resonanceReconstruction/rmatrix/legacy/CompoundSystemBase/src/evaluate.hpp", "src/resonanceReconstruction/rmatrix/src/fromENDF.hpp"]}
{"id": "C113", "title": "Of resonances at the same energy only the sums of the products of their amplitudes matter", "statement": "If two resonance tables have the same pairs of energy and eliminated width, and for each of these pairs the products of the amplitudes of any two channels have the same sum over the resonances of the pair, then both tables are accepted alike, and spin groups and compound systems with these tables report the same cross sections and the same T-matrix elements, and fail at the same energies. In particular a resonance may be split into any number of equal ones that share its widths and each have its eliminated width, and two resonances at one energy with the same eliminated width may be rotated into each other. The older Reich-Moore code gives the same cross sections for an evaluation and for the one in which each resonance is split like this.", "quantifier": "all tables with any number of resonances and channels, both boundary conditions, all energies, Coulomb libraries and caches; all Reich-Moore evaluations that make sense physically, any number of parts for each resonance", "why_tests_cant": "Tests have resonances at different energies; the claim is about all pairs of equivalent tables at all energies.", "anchors": ["src/resonanceReconstruction/rmatrix/SpinGroup/src/evaluate.hpp", "src/resonanceReconstruction/rmatrix/Resonance/src/rmatrix.hpp", "src/resonanceReconstruction/rmatrix/ResonanceTable/src/verifyTable.hpp", "src/resonanceReconstruction/rmatrix/CompoundSystem/src/evaluate.hpp", "src/resonanceReconstruction/reichMoore/Base/src/evaluate.hpp", "src/resonanceReconstruction/reichMoore/Lvalue/src/call.hpp"]}
{"id": "C114", "title": "Average cross sections depend on the average widths relative to the level spacing alone", "statement": "If the level spacing and all average widths of a group of the unresolved resonance region are multiplied by the same factor, its contribution to the elastic, capture and fission cross sections does not change, and neither do the cross sections of compound systems with such groups. Two unresolved ranges of an evaluation whose tables differ in a positive factor for each l and J give the same cross sections at all energies, and if the first makes sense physically both are accepted.", "quantifier": "all groups, tables and factors, with a factor for each group; all numbers of l and J values and of rows in the tables, all energies at which the first group or system has values", "why_tests_cant": "Tests compare with stored values for given parameters; the claim relates the results for all pairs of proportional parameters.", "anchors": ["src/resonanceReconstruction/rmatrix/legacy/unresolved/SpinGroup/src/evaluate.hpp", "src/resonanceReconstruction/rmatrix/legacy/unresolved/src/calculateFluctuationIntegrals.hpp", "src/resonanceReconstruction/rmatrix/legacy/CompoundSystemBase/src/evaluate.hpp", "src/resonanceReconstruction/rmatrix/src/fromENDF.hpp"]}
{"id": "C115", "title": "Absorption is accompanied by elastic scattering", "statement": "The square of the sum of all cross sections is at most 4 L times the elastic cross section, where L is the limit of unitarity for absorption of C74: pi/k^2 g for each incident channel of a spin group or compound system, pi/k^2 NLSC^2 for a Reich-Moore range, pi/k^2 times the sum of g times the number of elastic channels for an R-matrix-limited range, and pi/k^2 times the sum of 2l+1 in the older Reich-Moore code. In particular nothing is captured and nothing fissions where the elastic cross section vanishes, and when absorption reaches its limit elastic scattering is at least as large.", "quantifier": "all spin groups and compound systems with one elastic reaction, all Reich-Moore ranges with non-negative widths, all R-matrix-limited ranges with distinct pairs of particles (any flags, widths of any sign, charged particles), all systems of the older Reich-Moore code with allowed J values, all energies, boundary conditions and Coulomb libraries", "why_tests_cant": "The inequality relates elastic scattering to all other reactions for every set of resonance parameters; tests compare each reaction with its own reference values.", "anchors": ["src/resonanceReconstruction/rmatrix/SpinGroup/src/evaluate.hpp", "src/resonanceReconstruction/rmatrix/CompoundSystem/src/evaluate.hpp", "src/resonanceReconstruction/rmatrix/Reconstructor.hpp", "src/resonanceReconstruction/rmatrix/src/makeReichMooreCompoundSystem.hpp", "src/resonanceReconstruction/rmatrix/src/makeCompoundSystem.hpp", "src/resonanceReconstruction/reichMoore/Base/src/evaluate.hpp", "src/resonanceReconstruction/reichMoore/Lvalue/src/call.hpp"]}
