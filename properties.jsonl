{"id": "C01", "title": "Ordering moves only ever produce permutations", "statement": "Every trial ordering made by the ordering engines (reverse a stretch, move a stretch, switch two items, shuffle a stretch, undo a crossing loop, reconnect to a near neighbour, random start) contains exactly the same items, each exactly as often, as the ordering it started from: no item is lost or visited twice.", "quantifier": "all orderings of any length, all random draws the engine can make, and all sequences of such moves", "why_tests_cant": "the moves are driven by random cut points with wrap-around; a test visits a few cut points of a few lengths", "anchors": ["BayesicFitting/source/ReverseEngine.py:ReverseEngine.executeOnce", "BayesicFitting/source/MoveEngine.py:MoveEngine.executeOnce", "BayesicFitting/source/SwitchEngine.py:SwitchEngine.executeOnce", "BayesicFitting/source/ShuffleEngine.py:ShuffleEngine.execute", "BayesicFitting/source/LoopEngine.py:LoopEngine.executeOnce", "BayesicFitting/source/NearEngine.py:NearEngine.executeOnce", "BayesicFitting/source/StartOrderEngine.py:StartOrderEngine.execute"]}
{"id": "C02", "title": "The length of a closed tour depends only on the cyclic order", "statement": "For a travelling-salesman problem with a symmetric distance, the total of the leg lengths returned for a tour is unchanged when the tour is started at another city or is run through backwards, it is never negative, and a tour of n cities has exactly n legs.", "quantifier": "all tours, all rotations, all city tables, all symmetric non-negative distance functions", "why_tests_cant": "ranges over all tours and rotations; indices wrap around, the classical place for off by one errors", "anchors": ["BayesicFitting/source/SalesmanProblem.py:SalesmanProblem.result", "BayesicFitting/source/DistanceCostFunction.py:DistanceCostFunction.logLdata"]}
{"id": "C03", "title": "A sorted walker ensemble stays sorted under insertion, and cropping is exactly filtering", "statement": "Inserting a walker in a list that is ordered on log likelihood gives an ordered list holding the old walkers and the new one and nothing else; the index reported for a likelihood level is the number of walkers at or below that level; cropping at a level removes precisely the walkers at or below it and keeps the others in order.", "quantifier": "all ordered lists of walkers, all likelihood values (ties included), all sequences of insertions and crops", "why_tests_cant": "ties, empty lists and boundary positions over histories of insertions cannot be enumerated", "anchors": ["BayesicFitting/source/WalkerList.py:WalkerList.insertWalker", "BayesicFitting/source/WalkerList.py:WalkerList.firstIndex", "BayesicFitting/source/WalkerList.py:WalkerList.cropOnLow"]}
{"id": "C04", "title": "Evidence bookkeeping of nested sampling is exact", "statement": "After any number of iterations the reported evidence Z = exp(logZ) equals the sum of the weights of all samples that were stored, each stored weight is the likelihood of the discarded walker times its share of the prior volume, and the prior volumes given out plus the one that remains never exceed one.", "quantifier": "all runs: every number of iterations, ensemble size, discard number and every sequence of discarded likelihoods", "why_tests_cant": "an invariant over runs of arbitrary length kept in logarithms; a test compares one run with a tolerance", "anchors": ["BayesicFitting/source/NestedSampler.py:NestedSampler.updateEvidence", "BayesicFitting/source/NestedSampler.py:NestedSampler.sample"]}
{"id": "C05", "title": "Evidence is bounded by the highest likelihood seen", "statement": "The evidence reported at the end of a run is below the highest likelihood of any sample and at least the lowest likelihood times the prior volume that the iterations went through.", "quantifier": "all runs with any sequence of discarded likelihoods and any final ensemble", "why_tests_cant": "a global inequality on all histories", "anchors": ["BayesicFitting/source/NestedSampler.py:NestedSampler.updateEvidence"]}
{"id": "C06", "title": "Posterior sample weights are a probability distribution", "statement": "After normalisation the weights of the posterior samples are all positive and sum to exactly one, and are proportional to the stored evidence contributions, so weighted averages of a parameter lie between the smallest and the largest value sampled.", "quantifier": "all non-empty sample lists with finite log weights", "why_tests_cant": "must hold for every list length and every weight range, and for every quantity averaged", "anchors": ["BayesicFitting/source/SampleList.py:SampleList.normalize", "BayesicFitting/source/SampleList.py:SampleList.average", "BayesicFitting/source/SampleList.py:SampleList.averstd"]}
{"id": "C07", "title": "The likelihood floor of nested sampling only rises and every walker stays above it", "statement": "During a run the lowest likelihood in the ensemble never decreases from one iteration to the next, every replaced walker has a likelihood at least as high as the floor it was explored under, the ensemble keeps its size, and the run stores exactly one sample per discarded walker plus one per walker left at the end.", "quantifier": "all runs, for every discard number, every outcome of the random engines, every number of iterations", "why_tests_cant": "needs an invariant over the loop with an arbitrary, adversarial exploration outcome", "anchors": ["BayesicFitting/source/NestedSampler.py:NestedSampler.sample", "BayesicFitting/source/NestedSampler.py:NestedSampler.updateWalkers", "BayesicFitting/source/Explorer.py:Explorer.exploreWalker"]}
{"id": "C08", "title": "A nested sampling run stops", "statement": "The sampler performs only finitely many iterations: it stops no later than the iteration limit derived from the options, and also as soon as the evidence is saturated; it never starts an iteration after the stop condition holds.", "quantifier": "all settings of the options and all sequences of evidence updates", "why_tests_cant": "termination over unbounded runs", "anchors": ["BayesicFitting/source/NestedSampler.py:NestedSampler.nextIteration", "BayesicFitting/source/NestedSampler.py:NestedSampler.getMaxIter"]}
{"id": "C09", "title": "Engines never leave a walker below the likelihood constraint", "statement": "Each parameter moving engine (start, step, Gibbs, chord, Galilean, birth, death, structure, random) either leaves the walker as it was or replaces it by one whose stored log likelihood is the log likelihood of its stored parameters and is at least the required level; parameters that are not being fitted keep their values.", "quantifier": "all models and likelihood functions, all random draws, all starting walkers that satisfy the constraint", "why_tests_cant": "random, adversarial step sequences and arbitrary likelihood landscapes", "anchors": ["BayesicFitting/source/GibbsEngine.py:GibbsEngine.execute", "BayesicFitting/source/StepEngine.py:StepEngine.execute", "BayesicFitting/source/ChordEngine.py:ChordEngine.execute", "BayesicFitting/source/GalileanEngine.py:GalileanEngine.execute", "BayesicFitting/source/RandomEngine.py:RandomEngine.execute", "BayesicFitting/source/BirthEngine.py:BirthEngine.execute", "BayesicFitting/source/DeathEngine.py:DeathEngine.execute", "BayesicFitting/source/Engine.py:Engine.setWalker"]}
{"id": "C10", "title": "Galilean reflection conserves speed and is its own inverse", "statement": "Mirroring the velocity on the likelihood gradient conserves the length of the velocity, mirroring twice on the same gradient gives the original velocity, and the component along the gradient changes sign; mirroring on the edge of the unit box keeps every coordinate inside the box. A step that reaches no edge is straight and leaves the velocity as it is; otherwise every velocity component gets a new random size and the direction it has after mirroring on the edges.", "quantifier": "all dimensions, all velocities, all nonzero gradients, all positions in the unit box with steps of at most one", "why_tests_cant": "a continuous family in every dimension", "anchors": ["BayesicFitting/source/GalileanEngine.py:UnitMovements.mirrorOnLowL", "BayesicFitting/source/GalileanEngine.py:UnitMovements.trialStep", "BayesicFitting/source/GalileanEngine.py:UnitMovements.reverseVelocity"]}
{"id": "C11", "title": "Interpolation finds the point where the likelihood crosses the level", "statement": "When the path starts at or above the level and ends below it, the interpolated fraction lies between 0 and 1, and the parabola through the three known likelihoods takes the level value precisely at that fraction.", "quantifier": "all real likelihood triples that straddle the level", "why_tests_cant": "real valued case analysis on the sign of a discriminant", "anchors": ["BayesicFitting/source/GalileanEngine.py:GalileanEngine.quadinterpol"]}
{"id": "C12", "title": "Chord steps stay within the unit box", "statement": "A point drawn on the chord through a walker inside the unit box never leaves the unit box, and shrinking the chord after a rejected trial keeps the starting point on the chord, so the shrinking cannot lose the walker.", "quantifier": "all dimensions, all walkers strictly inside the box, all directions, all sequences of rejections", "why_tests_cant": "continuous geometry and unbounded rejection sequences", "anchors": ["BayesicFitting/source/ChordEngine.py:ChordEngine.execute", "BayesicFitting/source/ChordEngine.py:ChordEngine.stepOut"]}
{"id": "C13", "title": "Prior maps between unit range and parameter domain are inverse and monotone", "statement": "For the uniform, Jeffreys, exponential, Laplace, Cauchy and Gauss priors, mapping a unit value to the parameter domain and back gives the same unit value, and mapping a value in the domain to unit and back gives the same value; larger unit values give larger parameter values.", "quantifier": "all unit values in (0,1), all domain values, all centers, scales and limits", "why_tests_cant": "real quantification over values and settings", "anchors": ["BayesicFitting/source/Prior.py:Prior", "BayesicFitting/source/UniformPrior.py:UniformPrior", "BayesicFitting/source/JeffreysPrior.py:JeffreysPrior", "BayesicFitting/source/ExponentialPrior.py:ExponentialPrior", "BayesicFitting/source/LaplacePrior.py:LaplacePrior", "BayesicFitting/source/CauchyPrior.py:CauchyPrior", "BayesicFitting/source/GaussPrior.py:GaussPrior"]}
{"id": "C14", "title": "A prior with limits only yields values within its limits", "statement": "When a prior has lower and/or upper limits every unit value in [0,1] is mapped to a parameter value between the limits, the limits themselves are the images of 0 and 1, and mapping back is still the inverse.", "quantifier": "all priors of a strictly increasing cumulative, all limits, all unit values", "why_tests_cant": "real quantification over limits and values; histories of attribute settings", "anchors": ["BayesicFitting/source/Prior.py:Prior.setLimits", "BayesicFitting/source/Prior.py:Prior.limitedDomain2Unit", "BayesicFitting/source/Prior.py:Prior.limitedUnit2Domain"]}
{"id": "C15", "title": "The prior density is the derivative of the prior cumulative", "statement": "For each prior the density that result() returns is the derivative of the map from domain to unit and logResult is its logarithm, so that a uniform draw in unit space is a draw from the advertised prior; partialLog is the derivative of logResult.", "quantifier": "all domain values in the interior of the domain, all scales, centers, limits", "why_tests_cant": "a differential identity on the reals", "anchors": ["BayesicFitting/source/Prior.py:Prior.result", "BayesicFitting/source/CauchyPrior.py:CauchyPrior.result", "BayesicFitting/source/LaplacePrior.py:LaplacePrior.result", "BayesicFitting/source/ExponentialPrior.py:ExponentialPrior.result", "BayesicFitting/source/JeffreysPrior.py:JeffreysPrior.result", "BayesicFitting/source/UniformPrior.py:UniformPrior.result"]}
{"id": "C16", "title": "A circular prior treats its domain as a circle", "statement": "With a circular prior, domain values a whole number of periods away from the domain are folded back to the same point, and the result always lies in the base period.", "quantifier": "all reals, all periods", "why_tests_cant": "real quantification; folding is implemented with a three fold domain and a single wrap", "anchors": ["BayesicFitting/source/Prior.py:Prior.circularUnit2Domain", "BayesicFitting/source/Prior.py:Prior.circularDomain2Unit", "BayesicFitting/source/CircularUniformPrior.py:CircularUniformPrior"]}
{"id": "C17", "title": "A compound model evaluates its components left to right, each on its own slice of the parameters", "statement": "The result of a model built with +, -, *, / and | is the left to right application of these operations on the results of the components, where each component gets exactly its own consecutive parameters; a compound placed in brackets acts as one component. The number of parameters is the sum of those of the components.", "quantifier": "all chains of any length and nesting depth, all operations, all parameter lists", "why_tests_cant": "an inductive structure of unbounded depth", "anchors": ["BayesicFitting/source/Model.py:Model.appendModel", "BayesicFitting/source/Model.py:Model.result", "BayesicFitting/source/Model.py:Model.operate", "BayesicFitting/source/Model.py:Brackets"]}
{"id": "C18", "title": "Parameter derivatives of a compound model are the true derivatives", "statement": "The matrix of partial derivatives a compound model returns holds, for each parameter of each component, the derivative of the compound result with respect to that parameter, when the components return true derivatives: sum, difference, product and quotient rules and the chain rule for piped models, column by column in parameter order.", "quantifier": "all chains of any length and nesting, all parameter values where denominators are not zero", "why_tests_cant": "calculus on an inductive structure", "anchors": ["BayesicFitting/source/Model.py:Model.partial", "BayesicFitting/source/Model.py:Model._recursivePartial", "BayesicFitting/source/Model.py:Model.selectPipe"]}
{"id": "C19", "title": "The x derivative of a compound model is the true derivative", "statement": "The derivative with respect to the independent variable returned by a compound model equals the true derivative of its result, for all operations including piping.", "quantifier": "all chains, all x where denominators are nonzero", "why_tests_cant": "calculus on an inductive structure", "anchors": ["BayesicFitting/source/Model.py:Model.derivative"]}
{"id": "C20", "title": "Parameter wise questions to a compound model go to the right component", "statement": "Asking a compound model for the prior, the name or the limits of its k-th parameter gives the answer of the component that owns the k-th parameter, for its own local number; asking for a parameter beyond the last one is an error.", "quantifier": "all chains and all k", "why_tests_cant": "offset arithmetic over chains of any length", "anchors": ["BayesicFitting/source/Model.py:Model.getPrior", "BayesicFitting/source/Model.py:Model.getParameterName", "BayesicFitting/source/Model.py:Model.setPrior"]}
{"id": "C21", "title": "Combining models leaves the operands usable as before", "statement": "Combining two models with an operator yields a new model; the operands keep their own results, parameter numbers and parameters.", "quantifier": "all pairs of (compound) models, all operators, all later evaluations", "why_tests_cant": "aliasing of shared linked structures over histories", "anchors": ["BayesicFitting/source/Model.py:Model.__add__", "BayesicFitting/source/Model.py:Model.appendModel", "BayesicFitting/source/Model.py:Model.isolateModel"]}
{"id": "C22", "title": "Fixing parameters is substitution", "statement": "A model with fixed parameters gives for any list of free parameters exactly the result of the free model in which the fixed values (or the results of fixed models) are put at the fixed positions and the free parameters, in order, at the other positions; its partial derivatives are those of the free model at the free positions (plus the chain rule through models that replace a parameter).", "quantifier": "all sets of fixed positions, all values, all parameter lists", "why_tests_cant": "index bookkeeping over arbitrary subsets", "anchors": ["BayesicFitting/source/FixedModel.py:FixedModel.expand", "BayesicFitting/source/FixedModel.py:FixedModel.select", "BayesicFitting/source/FixedModel.py:FixedModel.partial"]}
{"id": "C23", "title": "Growing and shrinking a dynamic model keeps the other parameters", "statement": "When a component is inserted in a dynamic model that is part of a compound, the parameters of all other components keep their values and order; removing the same component restores the original list; the total number of parameters changes by the size of one component, and the number of components stays within the set minimum and maximum.", "quantifier": "all parameter lists, all positions, all component sizes, all histories of births and deaths", "why_tests_cant": "unbounded histories of births and deaths and arbitrary offsets", "anchors": ["BayesicFitting/source/Dynamic.py:Dynamic.grow", "BayesicFitting/source/Dynamic.py:Dynamic.shrink", "BayesicFitting/source/Dynamic.py:Dynamic.alterParameters", "BayesicFitting/source/RepeatingModel.py:RepeatingModel.grow", "BayesicFitting/source/RepeatingModel.py:RepeatingModel.shrink"]}
{"id": "C24", "title": "The list of fitted parameters follows a birth or death", "statement": "After a birth or a death the list of fitted parameter numbers again points to the same fitted parameters (shifted when they lie behind the change), plus the new ones in case of a birth.", "quantifier": "all index lists, offsets, locations and sizes", "why_tests_cant": "index arithmetic with negative (hyperparameter) indices", "anchors": ["BayesicFitting/source/Dynamic.py:Dynamic.alterFitindex"]}
{"id": "C25", "title": "A repeated model is a sum, independent of the order of its components", "statement": "The result of a repeating model is the fold of the results of the repeated component with its consecutive blocks of parameters (with shared parameters taken from the first block); shuffling the blocks leaves the result unchanged.", "quantifier": "all numbers of components, all block sizes, all permutations of blocks, all sets of shared parameters", "why_tests_cant": "unbounded number of components and permutations", "anchors": ["BayesicFitting/source/RepeatingModel.py:RepeatingModel.baseResult", "BayesicFitting/source/RepeatingModel.py:RepeatingModel.shuffle", "BayesicFitting/source/RepeatingModel.py:RepeatingModel.par2model"]}
{"id": "C26", "title": "A combined model ties parameters together", "statement": "In a combination of identical models with additive or multiplicative connections the result is that of independent models whose tied parameters are the first model's parameter plus (times) the given constants; its partials are the corresponding sums.", "quantifier": "all numbers of models, all sets of ties, all parameters", "why_tests_cant": "index bookkeeping over arbitrary sets", "anchors": ["BayesicFitting/source/CombiModel.py:CombiModel.expandParameters", "BayesicFitting/source/CombiModel.py:CombiModel.basePartial", "BayesicFitting/source/CombiModel.py:CombiModel.makeExpandIndex"]}
{"id": "C27", "title": "Log likelihood gradients are true gradients", "statement": "For each error distribution (Gauss, Laplace, Cauchy, Poisson, Bernoulli, exponential) the partial log likelihood equals the derivative of the log likelihood with respect to each fitted model parameter and hyperparameter, with and without weights.", "quantifier": "all data sets of any length, all weights, all differentiable models, all parameters in the interior of the domain", "why_tests_cant": "a differential identity over all data and models; a numerical check samples points", "anchors": ["BayesicFitting/source/GaussErrorDistribution.py:GaussErrorDistribution.nextPartialData", "BayesicFitting/source/LaplaceErrorDistribution.py:LaplaceErrorDistribution.nextPartialData", "BayesicFitting/source/CauchyErrorDistribution.py:CauchyErrorDistribution.nextPartialData", "BayesicFitting/source/PoissonErrorDistribution.py:PoissonErrorDistribution.nextPartialData", "BayesicFitting/source/BernoulliErrorDistribution.py:BernoulliErrorDistribution.nextPartialData", "BayesicFitting/source/ExponentialErrorDistribution.py:ExponentialErrorDistribution.nextPartialData", "BayesicFitting/source/ErrorDistribution.py:ErrorDistribution.partialLogL"]}
{"id": "C28", "title": "Log likelihood is additive over the data", "statement": "The log likelihood is the sum of the contributions of the data points, so the likelihood of two independent data sets together is the product of their likelihoods, it does not depend on the order of the data, and the closed formula used as alternative gives the same value.", "quantifier": "all data sets, all partitions, all parameters", "why_tests_cant": "must hold for all data sets and splits", "anchors": ["BayesicFitting/source/ErrorDistribution.py:ErrorDistribution.logLikelihood", "BayesicFitting/source/GaussErrorDistribution.py:GaussErrorDistribution.logLdata", "BayesicFitting/source/GaussErrorDistribution.py:GaussErrorDistribution.logLikelihood_alt", "BayesicFitting/source/LaplaceErrorDistribution.py:LaplaceErrorDistribution.logLikelihood_alt", "BayesicFitting/source/CauchyErrorDistribution.py:CauchyErrorDistribution.logLikelihood_alt", "BayesicFitting/source/PoissonErrorDistribution.py:PoissonErrorDistribution.logLikelihood_alt"]}
{"id": "C29", "title": "Each likelihood is a normalised probability density of the datum", "statement": "For fixed model value and scale the likelihood of one datum integrates (or sums, for counts and classes) to one over all possible data values.", "quantifier": "all scales and model values in the domain", "why_tests_cant": "an improper integral over the reals for every scale", "anchors": ["BayesicFitting/source/GaussErrorDistribution.py:GaussErrorDistribution.logLdata", "BayesicFitting/source/LaplaceErrorDistribution.py:LaplaceErrorDistribution.logLdata", "BayesicFitting/source/CauchyErrorDistribution.py:CauchyErrorDistribution.logLdata", "BayesicFitting/source/PoissonErrorDistribution.py:PoissonErrorDistribution.logLdata", "BayesicFitting/source/BernoulliErrorDistribution.py:BernoulliErrorDistribution.logLdata", "BayesicFitting/source/UniformErrorDistribution.py:UniformErrorDistribution.logLdata"]}
{"id": "C30", "title": "The linear fitter returns the global minimum of chi squared", "statement": "The parameters returned by the linear fitter minimise the weighted sum of squared residuals over all parameter vectors that agree with the kept parameters, and the returned vector has the kept values at the kept positions.", "quantifier": "all design matrices, data, non-negative weights, subsets of kept parameters", "why_tests_cant": "a global optimality statement over a continuum", "anchors": ["BayesicFitting/source/Fitter.py:Fitter.fit", "BayesicFitting/source/BaseFitter.py:BaseFitter.fitprolog", "BayesicFitting/source/BaseFitter.py:BaseFitter.keepFixed", "BayesicFitting/source/BaseFitter.py:BaseFitter.insertParameters", "BayesicFitting/source/BaseFitter.py:BaseFitter.getHessian", "BayesicFitting/source/BaseFitter.py:BaseFitter.getVector"]}
{"id": "C31", "title": "The QR fitter minimises the same chi squared as the linear fitter", "statement": "Given the same data and weights the QR fitter returns a minimum of the weighted sum of squared residuals.", "quantifier": "all data sets and weights", "why_tests_cant": "global optimality over all weights", "anchors": ["BayesicFitting/source/QRFitter.py:QRFitter.fit"]}
{"id": "C32", "title": "Levenberg-Marquardt never accepts a worse chi squared, respects limits and stops", "statement": "After the first accepted step chi squared never increases, every parameter vector it accepts lies within the limits, and the fit ends after a bounded number of iterations or with an error.", "quantifier": "all models, data, limits, tolerances and iteration limits", "why_tests_cant": "an iterative process with data dependent steps", "anchors": ["BayesicFitting/source/LevenbergMarquardtFitter.py:LevenbergMarquardtFitter.fit", "BayesicFitting/source/LevenbergMarquardtFitter.py:LevenbergMarquardtFitter.trialfit", "BayesicFitting/source/LevenbergMarquardtFitter.py:LevenbergMarquardtFitter.checkLimits"]}
{"id": "C33", "title": "Keeping parameters fixed in a fit touches only the others", "statement": "With kept parameters the fit index is the increasing list of the other parameters, insertion of the fitted values leaves kept ones at their given value and puts the fitted ones in order, and the number of fitted parameters is the number of parameters minus the number kept.", "quantifier": "all numbers of parameters, all sets of kept parameters", "why_tests_cant": "arbitrary subsets", "anchors": ["BayesicFitting/source/BaseFitter.py:BaseFitter.keepFixed", "BayesicFitting/source/BaseFitter.py:BaseFitter.insertParameters"]}
{"id": "C34", "title": "The simple models return their true derivatives", "statement": "For each built-in simple model the partial derivatives to the parameters and the derivative to x that it returns are the true derivatives of its result.", "quantifier": "all x and all parameter values in the domain of the model", "why_tests_cant": "a differential identity on the reals", "anchors": ["BayesicFitting/source/GaussModel.py:GaussModel", "BayesicFitting/source/LorentzModel.py:LorentzModel", "BayesicFitting/source/ArctanModel.py:ArctanModel", "BayesicFitting/source/ExpModel.py:ExpModel", "BayesicFitting/source/SineModel.py:SineModel", "BayesicFitting/source/SineDriftModel.py:SineDriftModel", "BayesicFitting/source/LogisticModel.py:LogisticModel", "BayesicFitting/source/PowerLawModel.py:PowerLawModel", "BayesicFitting/source/PowerModel.py:PowerModel", "BayesicFitting/source/EtalonModel.py:EtalonModel", "BayesicFitting/source/PadeModel.py:PadeModel", "BayesicFitting/source/HarmonicModel.py:HarmonicModel", "BayesicFitting/source/PseudoVoigtModel.py:PseudoVoigtModel", "BayesicFitting/source/KernelModel.py:KernelModel", "BayesicFitting/source/VoigtModel.py:VoigtModel", "BayesicFitting/source/SincModel.py:SincModel", "BayesicFitting/source/SineAmpModel.py:SineAmpModel", "BayesicFitting/source/EtalonDriftModel.py:EtalonDriftModel", "BayesicFitting/source/ConstantModel.py:ConstantModel", "BayesicFitting/source/PolySineAmpModel.py:PolySineAmpModel"]}
{"id": "C35", "title": "Polynomial models are the polynomials they claim to be", "statement": "The polynomial model returns the sum of the coefficients times the powers of x, the Chebyshev model the sum of the coefficients times the Chebyshev polynomials of the first kind, the surface model the full bivariate polynomial; their derivatives are the derivatives of those polynomials.", "quantifier": "all degrees, coefficients and x", "why_tests_cant": "the recurrences run over an unbounded degree", "anchors": ["BayesicFitting/source/PolynomialModel.py:PolynomialModel", "BayesicFitting/source/ChebyshevPolynomialModel.py:ChebyshevPolynomialModel", "BayesicFitting/source/PolySurfaceModel.py:PolySurfaceModel"]}
{"id": "C36", "title": "Spline models are piecewise polynomials in the advertised space", "statement": "The columns of the spline model are differences of truncated powers, the sum of the coefficient weighted columns is continuous at every knot, and the returned x derivative is the derivative of the result.", "quantifier": "all orders, knot sequences, x", "why_tests_cant": "unbounded order and number of knots", "anchors": ["BayesicFitting/source/SplinesModel.py:SplinesModel.basePartial", "BayesicFitting/source/SplinesModel.py:SplinesModel.baseDerivative"]}
{"id": "C37", "title": "Kernels have the derivative, support and integral they advertise", "statement": "For each kernel the partial is the derivative of the result wherever that has one, the result is symmetric and (but for the sinc) lies between 0 and 1, bound kernels vanish outside their range, and the advertised integral is the integral of the result.", "quantifier": "all x", "why_tests_cant": "piecewise real functions with integrals", "anchors": ["BayesicFitting/source/kernels/Biweight.py:Biweight", "BayesicFitting/source/kernels/Tophat.py:Tophat", "BayesicFitting/source/kernels/Tricube.py:Tricube", "BayesicFitting/source/kernels/Triweight.py:Triweight", "BayesicFitting/source/kernels/Parabola.py:Parabola", "BayesicFitting/source/kernels/Triangle.py:Triangle", "BayesicFitting/source/kernels/Cosine.py:Cosine", "BayesicFitting/source/kernels/CosSquare.py:CosSquare", "BayesicFitting/source/kernels/Lorentz.py:Lorentz", "BayesicFitting/source/kernels/Gauss.py:Gauss", "BayesicFitting/source/kernels/Uniform.py:Uniform", "BayesicFitting/source/kernels/Huber.py:Huber"]}
{"id": "C38", "title": "Image indices enumerate every pixel exactly once", "statement": "The index list made for an image of any rank and shape lists every pixel position exactly once, the i-th entry being the position of the i-th element of the flattened image, so that reshaping the fit result puts each value back on its pixel.", "quantifier": "all shapes of any rank", "why_tests_cant": "mixed radix arithmetic over all shapes", "anchors": ["BayesicFitting/source/ImageAssistant.py:ImageAssistant.getIndices", "BayesicFitting/source/ImageAssistant.py:ImageAssistant.resizeData"]}
{"id": "C39", "title": "The orthonormal basis is orthonormal", "statement": "Vectors handed out by the orthonormal basis are unit vectors orthogonal to all previous ones since the last reset, as long as the inputs are independent, and after as many vectors as there are dimensions it starts again.", "quantifier": "all dimensions and all sequences of independent vectors", "why_tests_cant": "induction on the number of vectors", "anchors": ["BayesicFitting/source/OrthonormalBasis.py:OrthonormalBasis.normalise"]}
{"id": "C40", "title": "Residuals of a periodic quantity are folded to the nearest equivalent", "statement": "With cyclic data the folded residual differs from the plain residual by a whole number of periods and its absolute value is at most half a period, when model and data are within one and a half period.", "quantifier": "all reals, all periods", "why_tests_cant": "real quantification at fold boundaries", "anchors": ["BayesicFitting/source/Problem.py:Problem.cycor1", "BayesicFitting/source/Problem.py:Problem.cyclize"]}
{"id": "C41", "title": "The bounding box of the phantoms holds every phantom", "statement": "The minimum and maximum per parameter that the collection reports enclose the parameters of every phantom that was stored and is still above the likelihood level, and each bound is attained.", "quantifier": "all histories of stored walkers and all likelihood levels", "why_tests_cant": "histories of stores, crops and cached extremes", "anchors": ["BayesicFitting/source/PhantomCollection.py:PhantomCollection.storeItems", "BayesicFitting/source/PhantomCollection.py:PhantomCollection.calculateParamMinmax", "BayesicFitting/source/PhantomCollection.py:PhantomCollection.getParamMinmax"]}
{"id": "C42", "title": "The list of fitted parameters holds each free one exactly once", "statement": "The list of fitted parameters that the sampler makes from the free parameters, the kept parameters and the free hyperparameters contains each free one exactly once, hyperparameters are numbered from the end, and no kept or fixed one is included.", "quantifier": "all numbers of parameters and hyperparameters, all kept and fixed sets", "why_tests_cant": "arbitrary subsets", "anchors": ["BayesicFitting/source/NestedSampler.py:NestedSampler.makeFitlist"]}
{"id": "C43", "title": "Robust fitting stops and only down-weights", "statement": "A robust fit ends within its iteration limit and stops as soon as chi-squared settles; it returns the last of its fits; the weights it applies lie between zero and the original weights; larger residuals get smaller weights; with the default domain a deviant at 3 times the scale gets half its weight; one sided fitting leaves residuals on the other side at full weight.", "quantifier": "all data, kernels with values in [0,1], all inner fitters", "why_tests_cant": "iteration with an arbitrary inner fit", "anchors": ["BayesicFitting/source/RobustShell.py:RobustShell.fit", "BayesicFitting/source/RobustShell.py:RobustShell.getOneSidedWeights"]}
{"id": "C44", "title": "Log factorial agrees with the factorial for small arguments", "statement": "For k below 100 logFactorial(k) is within 2e-13 of the logarithm of k!, for larger k within 1/(360 k^3) + 1e-16, and for arrays it acts element by element.", "quantifier": "all k", "why_tests_cant": "a table and an asymptotic formula meet", "anchors": ["BayesicFitting/source/LogFactorial.py:logFactorial"]}
{"id": "C45", "title": "A copy of a prior or a model behaves as the original and is independent of it", "statement": "A copied prior gives the same values as the original for every argument, and later changes in the copy do not change the original.", "quantifier": "all priors, all settings, all later changes", "why_tests_cant": "aliasing over histories", "anchors": ["BayesicFitting/source/Prior.py:Prior.__init__", "BayesicFitting/source/UniformPrior.py:UniformPrior.copy", "BayesicFitting/source/Model.py:Model.copy"]}
{"id": "C46", "title": "A product model is a product of one dimensional models", "statement": "The product model returns the product of its component models each on its own coordinate and its own slice of the parameters, and its partials are the true partial derivatives.", "quantifier": "all numbers of component models, parameters and coordinates", "why_tests_cant": "unbounded number of factors", "anchors": ["BayesicFitting/source/ProductModel.py:ProductModel.baseResult", "BayesicFitting/source/ProductModel.py:ProductModel.basePartial"]}
{"id": "C47", "title": "An ordering engine changes only the walker it was asked to explore", "statement": "When an ordering engine is asked to explore one walker, all other walkers in the ensemble stay as they are, and a reported success means that the asked walker was replaced.", "quantifier": "all ensembles in every order, all engines, all draws", "why_tests_cant": "depends on the history of the ensemble order (ids versus positions)", "anchors": ["BayesicFitting/source/MoveEngine.py:MoveEngine.executeOnce", "BayesicFitting/source/ReverseEngine.py:ReverseEngine.executeOnce", "BayesicFitting/source/Engine.py:Engine.setWalker", "BayesicFitting/source/WalkerList.py:WalkerList.setWalker"]}
{"id": "C48", "title": "The loop engine recognises crossing stretches", "statement": "The loop engine takes two stretches of the tour for crossing precisely when the two line segments have a point in common.", "quantifier": "all quadruples of cities in the plane", "why_tests_cant": "real geometry in all configurations", "anchors": ["BayesicFitting/source/LoopEngine.py:LoopEngine.executeOnce", "BayesicFitting/source/Tools.py:isBetween"]}
{"id": "C49", "title": "The prior volumes tile the prior", "statement": "The prior volumes attributed to the discarded walkers and the volume that remains add up to exactly one in every iteration.", "quantifier": "all ensemble sizes, all discard numbers, all numbers of iterations", "why_tests_cant": "unbounded sums of exponentials", "anchors": ["BayesicFitting/source/NestedSampler.py:NestedSampler.updateEvidence", "BayesicFitting/source/NestedSampler.py:NestedSampler.sample"]}
{"id": "C50", "title": "The information is the posterior average of log likelihood minus log evidence", "statement": "The information that nested sampling reports is the weighted average of the log likelihood of the samples minus the log of the evidence.", "quantifier": "all runs, all numbers of iterations", "why_tests_cant": "accumulated in a recurrence over the whole run", "anchors": ["BayesicFitting/source/NestedSampler.py:NestedSampler.updateEvidence"]}
{"id": "C51", "title": "A call of sample() yields the posterior of that call", "statement": "The weights of the samples after a call of sample() are the evidence contributions of that call, divided by the evidence.", "quantifier": "all histories of calls on one sampler object", "why_tests_cant": "depends on what earlier calls left behind", "anchors": ["BayesicFitting/source/NestedSampler.py:NestedSampler.sample", "BayesicFitting/source/NestedSampler.py:NestedSampler.updateEvidence", "BayesicFitting/source/SampleList.py:SampleList.normalize"]}
{"id": "C52", "title": "Samples are stored in ascending order of likelihood", "statement": "The samples come in ascending order of likelihood, so that the last one has the maximum likelihood.", "quantifier": "all runs, every discard number, every outcome of the engines", "why_tests_cant": "needs the invariant that no walker is below any stored sample", "anchors": ["BayesicFitting/source/NestedSampler.py:NestedSampler.sample", "BayesicFitting/source/SampleList.py:SampleList.__init__"]}
{"id": "C53", "title": "Weeding keeps a contiguous stretch of the required size", "statement": "Weeding a sample list leaves exactly the maximum number of samples when there were more and all of them otherwise, the samples left are a contiguous stretch in the original order, and no sample that was removed had a higher weight than one that was kept.", "quantifier": "all sample lists, all maximum sizes", "why_tests_cant": "loop over a list of any length", "anchors": ["BayesicFitting/source/SampleList.py:SampleList.weed"]}
{"id": "C54", "title": "Kernels fall off and are one half at their advertised width", "statement": "No kernel but the sinc rises with the distance to the centre, and for every kernel the result at half the advertised full width at half maximum is one half.", "quantifier": "all kernels, all pairs of points", "why_tests_cant": "monotonicity over the reals, transcendental and piecewise functions", "anchors": ["BayesicFitting/source/kernels/Tophat.py:Tophat.FWHM", "BayesicFitting/source/kernels/Kernel.py:Kernel", "BayesicFitting/source/kernels/Sinc.py:Sinc"]}
{"id": "C55", "title": "The result of a kernel in terms of the square is the result", "statement": "For every kernel the result computed from the square of the distance is the result at that distance; the two dimensional kernel models rely on it.", "quantifier": "all kernels, all x", "why_tests_cant": "must hold for every real distance", "anchors": ["BayesicFitting/source/kernels/Kernel.py:Kernel.resultsq", "BayesicFitting/source/kernels/Tophat.py:Tophat.resultsq", "BayesicFitting/source/Kernel2dModel.py:Kernel2dModel"]}
{"id": "C56", "title": "Engines keep the parameters in the range of the prior", "statement": "Every parameter vector that an engine stores for a walker consists of the values it started with and, for fitted parameters, of images of numbers between 0 and 1 under the map from the unit interval to the prior, so that it can be drawn from the prior.", "quantifier": "all walkers, bounding boxes, random numbers, numbers of steps and trials", "why_tests_cant": "invariant over a loop of any length with arbitrary random numbers", "anchors": ["BayesicFitting/source/StartEngine.py:StartEngine.execute", "BayesicFitting/source/RandomEngine.py:RandomEngine.execute", "BayesicFitting/source/GibbsEngine.py:GibbsEngine.execute", "BayesicFitting/source/StepEngine.py:StepEngine.execute", "BayesicFitting/source/ChordEngine.py:ChordEngine.execute", "BayesicFitting/source/GalileanEngine.py:GalileanEngine.execute"]}
{"id": "C57", "title": "The near engine puts a city next to its nearest neighbour", "statement": "The table of nearest neighbours that the near engine keeps is right at all times, and a tour it accepts has some city directly after its nearest neighbour.", "quantifier": "all tours, distances, random numbers and histories of the table", "why_tests_cant": "search over a list of any length, with a cache that persists between calls", "anchors": ["BayesicFitting/source/NearEngine.py:NearEngine.executeOnce"]}
{"id": "C58", "title": "Questions about all parameters of a compound model agree with those about each of them", "statement": "Limits set for all parameters of a compound model at once are the limits it returns; it says to have limits or priors exactly when its parameters have them; converting all parameters between unit cube and domain at once gives the same as converting them one by one.", "quantifier": "all chains of models with or without brackets, all priors and limits", "why_tests_cant": "unbounded chains and nesting; mixtures of components with and without parameters", "anchors": ["BayesicFitting/source/Model.py:Model.setLimits", "BayesicFitting/source/Model.py:Model.getLimits", "BayesicFitting/source/Model.py:Model.hasLimits", "BayesicFitting/source/Model.py:Model.hasPriors", "BayesicFitting/source/Model.py:Model.nextPrior", "BayesicFitting/source/Model.py:Model.unit2Domain"]}
{"id": "C59", "title": "A decision tree sends each point to exactly one leaf", "statement": "For any decision tree and any table of inputs, each row belongs to exactly one leaf, whatever the parameter values: the result there is that leaf's parameter and the derivative with respect to the parameters is one for that parameter and zero for all others. A branch sends the rows above its cut (or that match its mask) to its left side. sortXdata returns each row exactly once, grouped by leaf.", "quantifier": "all trees of any depth, all tables, all parameter values", "why_tests_cant": "trees, tables and parameters are unbounded; tests use a few small trees", "anchors": ["BayesicFitting/source/DecisionTreeModel.py:DecisionTreeModel.baseResult", "BayesicFitting/source/DecisionTreeModel.py:DecisionTreeModel.basePartial", "BayesicFitting/source/DecisionTreeModel.py:DecisionTreeModel.sortXdata"]}
{"id": "C60", "title": "A decision tree gives a point the same value in every table", "statement": "The result of a decision tree at a point does not depend on which other points are in the table that is evaluated.", "quantifier": "all trees and all pairs of tables that share a point", "why_tests_cant": "needs two arbitrary tables; a test evaluates one", "anchors": ["BayesicFitting/source/DecisionTreeModel.py:DecisionTreeModel.partitionList"]}
{"id": "C61", "title": "Growing, shrinking and varying a decision tree keep parameters and leaves together", "statement": "After any sequence of births, deaths and variations a decision tree has exactly one parameter for each leaf and no error has occurred. A birth or death changes the result only in the points of the branch concerned, where the values are one of the old ones or the new one; varying changes the result only in points that pass the varied branch.", "quantifier": "all sequences of actions of any length, all random draws, all tables", "why_tests_cant": "histories are unbounded", "anchors": ["BayesicFitting/source/DecisionTreeModel.py:DecisionTreeModel.grow", "BayesicFitting/source/DecisionTreeModel.py:DecisionTreeModel.shrink", "BayesicFitting/source/DecisionTreeModel.py:DecisionTreeModel.vary"]}
{"id": "C62", "title": "Copies and codes of a decision tree are the same tree", "statement": "A copy of a decision tree, and a tree rebuilt from its code, give the same results and derivatives as the original at all data. A tree constructed with a depth has 2^depth leaves and the listed dimensions in order.", "quantifier": "all trees, all tables, all parameters", "why_tests_cant": "trees are unbounded", "anchors": ["BayesicFitting/source/DecisionTreeModel.py:DecisionTreeModel.copy", "BayesicFitting/source/DecisionTreeModel.py:DecisionTreeModel.encode", "BayesicFitting/source/DecisionTreeModel.py:DecisionTreeModel.decode"]}
{"id": "C63", "title": "The simplex minimiser reports the best value it has seen", "statement": "When AnnealingAmoeba.minimize ends, its fopt is the value of the function at one of the points where the function was computed, and no point where it was computed has a lower value; the point that minimize returns, which AmoebaFitter.fit puts in the model, has that value. A trial step looks at the point on the line through the worst corner and the mean of the other corners; with a temperature a better trial point always replaces the worst corner, and a worse one does so depending on temperature and random numbers.", "quantifier": "every function, starting point, step, limits, temperature, sequence of random numbers, callback and number of iterations", "why_tests_cant": "The path of the simplex depends on every function value; a remembered best point that is overwritten later shows only on paths where a tie or a flat start occurs.", "anchors": ["BayesicFitting/source/AnnealingAmoeba.py:AnnealingAmoeba.minimize", "BayesicFitting/source/AnnealingAmoeba.py:AnnealingAmoeba.temperatureStep", "BayesicFitting/source/AnnealingAmoeba.py:AnnealingAmoeba.trialStep", "BayesicFitting/source/AnnealingAmoeba.py:AnnealingAmoeba.inflateSimplex", "BayesicFitting/source/AmoebaFitter.py:AmoebaFitter.fit"]}
{"id": "C64", "title": "The simplex minimiser respects limits", "statement": "When limits are given to AnnealingAmoeba (or to AmoebaFitter.fit), the function is only computed at points within the limits, and the point that is returned is within the limits.", "quantifier": "every function, limits with low below high, starting point inside or outside the limits, step, temperature, random numbers and number of iterations", "why_tests_cant": "The claim is about every point visited on paths of any length.", "anchors": ["BayesicFitting/source/AnnealingAmoeba.py:AnnealingAmoeba.stayInLimits", "BayesicFitting/source/AnnealingAmoeba.py:AnnealingAmoeba.makeSimplex", "BayesicFitting/source/AnnealingAmoeba.py:AnnealingAmoeba.inflateSimplex"]}
{"id": "C65", "title": "The simplex minimiser ends", "statement": "AnnealingAmoeba accepts every start that spans a simplex, and minimize always ends: it returns when the values at all corners are within the tolerance of each other, or raises ConvergenceError after the maximum number of iterations.", "quantifier": "every function, starting point, step, limits and tolerances", "why_tests_cant": "Termination for every function cannot be tested by running some of them.", "anchors": ["BayesicFitting/source/AnnealingAmoeba.py:AnnealingAmoeba.minimize", "BayesicFitting/source/AnnealingAmoeba.py:AnnealingAmoeba.temperatureStep", "BayesicFitting/source/AnnealingAmoeba.py:AnnealingAmoeba.checkSimplex"]}
{"id": "C66", "title": "Errors in x and y: the gradient of the log likelihood is the true gradient", "statement": "For a problem with errors in both x and y, the squared residual is the distance in the metric of the covariance matrix (the data point's variances plus the squared noise scale), and the partial log likelihood equals the derivative of the log likelihood to every parameter of the model, every target position and the noise scale, with and without weights, for correlated errors too.", "quantifier": "all data sets, all differentiable models, all covariances with a determinant that is not zero, all parameters, targets and scales", "why_tests_cant": "a differential identity over all data, models and covariances", "anchors": ["BayesicFitting/source/ErrorsInXandYProblem.py:ErrorsInXandYProblem.weightedResSq", "BayesicFitting/source/ErrorsInXandYProblem.py:ErrorsInXandYProblem.partial", "BayesicFitting/source/Gauss2dErrorDistribution.py:Gauss2dErrorDistribution.logLdata", "BayesicFitting/source/Gauss2dErrorDistribution.py:Gauss2dErrorDistribution.nextPartialData"]}
{"id": "C67", "title": "Errors in x and y: variances are the squares of the accuracies, also after copying", "statement": "A problem with errors in x and y that is given accuracies uses their squares as variances and their product with the correlation as covariance; making copies of the problem, as every copy of a walker does, changes nothing for the original or for the copies, and the array given by the user can be used again.", "quantifier": "all arrays of accuracies of all allowed shapes, all histories of copies", "why_tests_cant": "the effect of shared memory shows only after some history of copies; tests look at one fresh problem", "anchors": ["BayesicFitting/source/ErrorsInXandYProblem.py:ErrorsInXandYProblem.setAccuracy", "BayesicFitting/source/ErrorsInXandYProblem.py:ErrorsInXandYProblem.__setattr__", "BayesicFitting/source/ErrorsInXandYProblem.py:ErrorsInXandYProblem.copy", "BayesicFitting/source/Walker.py:Walker.__init__"]}
{"id": "C68", "title": "Errors in x and y: the likelihood is a normalised density in the plane", "statement": "For fixed parameters, targets and scale the likelihood of one data point integrates to one over all values of its x and y.", "quantifier": "all positive definite covariances, models and scales", "why_tests_cant": "an improper double integral for every covariance", "anchors": ["BayesicFitting/source/Gauss2dErrorDistribution.py:Gauss2dErrorDistribution.logLdata", "BayesicFitting/source/Gauss2dErrorDistribution.py:Gauss2dErrorDistribution.updateDeterminant"]}
{"id": "C69", "title": "Errors in x and y: unit interval and domain correspond for parameters and targets", "statement": "The maps from the unit interval to the domain and back are each other's inverse, for the parameters of the model and for the targets; the prior of a target is the given prior centered on the measured position.", "quantifier": "all models, priors, data and indices", "why_tests_cant": "must hold for all priors and indices", "anchors": ["BayesicFitting/source/ErrorsInXandYProblem.py:ErrorsInXandYProblem.domain2Unit", "BayesicFitting/source/ErrorsInXandYProblem.py:ErrorsInXandYProblem.unit2Domain"]}
{"id": "C70", "title": "Multiple outputs: residuals, weights and partials belong together", "statement": "For a model with several outputs each element of the flattened residuals, the same element of the weights and the same row of the partials belong to the same output at the same data point, so that the gradient of the log likelihood is the true gradient; the noise scale is the root mean square of the residuals.", "quantifier": "all numbers of data, outputs and parameters, all differentiable models, all weights and accuracies", "why_tests_cant": "an index correspondence for all shapes; tests take one or two shapes, where transposed orders can agree by accident", "anchors": ["BayesicFitting/source/MultipleOutputProblem.py:MultipleOutputProblem.partial", "BayesicFitting/source/MultipleOutputProblem.py:MultipleOutputProblem.residuals", "BayesicFitting/source/MultipleOutputProblem.py:MultipleOutputProblem.expandFlat"]}
{"id": "C71", "title": "Evidence of a linear fit is the average likelihood", "statement": "The evidence that a fitter returns for a linear model is the logarithm of the likelihood averaged over the prior ranges of the fitted parameters (with the integral extended over all values, the Gaussian approximation): exact for every linear model, every data set, weights, accuracies and kept parameters.", "quantifier": "all linear models, data, weights, accuracies, kept parameters, prior ranges or limits", "why_tests_cant": "an integral over as many dimensions as there are parameters, for all data; tests compare with stored numbers", "anchors": ["BayesicFitting/source/BaseFitter.py:BaseFitter.getLogZ", "BayesicFitting/source/BaseFitter.py:BaseFitter.getLogLikelihood", "BayesicFitting/source/Fitter.py:Fitter.fit"]}
{"id": "C72", "title": "Evidence with an unknown noise scale", "statement": "With limits on the noise scale the evidence is the logarithm of the likelihood averaged over the prior ranges of the parameters and over the scale with a 1/scale prior between the limits, up to a good approximation that does not depend on the limits and not on the number of parameters.", "quantifier": "all linear models, data and limits", "why_tests_cant": "an integral for all data and limits", "anchors": ["BayesicFitting/source/BaseFitter.py:BaseFitter.getLogZ", "BayesicFitting/source/BaseFitter.py:BaseFitter.makeVariance"]}
{"id": "C73", "title": "Covariance, standard deviations and scale are right on average", "statement": "Averaged over the noise, any uncorrelated noise, the fitted parameters are the true ones, the covariance matrix is that of the errors of the fitted parameters and the square of the noise scale is that of the noise. The standard deviations are the roots of the diagonal, at the place of the parameter; they are 0 for kept parameters.", "quantifier": "all linear models, data, weights, accuracies, kept parameters and all distributions of the noise", "why_tests_cant": "a statement about averages over all noise; a test sees some realisations within a tolerance", "anchors": ["BayesicFitting/source/BaseFitter.py:BaseFitter.getCovarianceMatrix", "BayesicFitting/source/BaseFitter.py:BaseFitter.getStandardDeviations", "BayesicFitting/source/BaseFitter.py:BaseFitter.getScale", "BayesicFitting/source/BaseFitter.py:BaseFitter.getInverseHessian"]}
{"id": "C74", "title": "Questions after a fit do not influence each other", "statement": "After a fit the scale, the covariance matrix, the standard deviations and the evidence can be asked for in any order and as often as one likes: the answers are those that would have been given immediately after the fit.", "quantifier": "all fits and all sequences of questions", "why_tests_cant": "must hold for every order of the questions; tests ask in one order", "anchors": ["BayesicFitting/source/BaseFitter.py:BaseFitter.getHessian", "BayesicFitting/source/BaseFitter.py:BaseFitter.getCovarianceMatrix", "BayesicFitting/source/BaseFitter.py:BaseFitter.getStandardDeviations", "BayesicFitting/source/BaseFitter.py:BaseFitter.getLogZ"]}
{"id": "C75", "title": "Basic splines are splines and their derivative is right", "statement": "For every order and every sorted list of at least two knots for which a BasicSplinesModel (border 0) can be made, and for all parameters: the result is a polynomial of at most that order between two knots, and its first order-1 derivatives are continuous everywhere, also at the knots. The derivative the model reports is the derivative of its result (for order 0 and 1: except at the inner knots), the partials are the derivatives to the parameters, and between two knots only order+1 of the parameters have any influence.", "quantifier": "all orders, knot lists, parameters and x, within and outside the range of the knots", "why_tests_cant": "the coefficients come out of a linear system per basis function; a test compares a few values for one or two sets of knots, while continuity of derivatives at knots is a statement about all parameters", "anchors": ["BayesicFitting/source/BasicSplinesModel.py:BasicSplinesModel.findParameters", "BayesicFitting/source/BasicSplinesModel.py:BasicSplinesModel.baseResult", "BayesicFitting/source/BasicSplinesModel.py:BasicSplinesModel.basePartial", "BayesicFitting/source/BasicSplinesModel.py:BasicSplinesModel.baseDerivative"]}
{"id": "C76", "title": "Basic splines add up to one and span the same functions as SplinesModel", "statement": "For every order and strictly increasing list of knots for which a BasicSplinesModel (border 0) can be made: the basis functions add up to 1 for every x, although the code only imposes it in as many points as there are parameters; every parameter has influence and the parameters that give a function are unique; and the functions that can be made are exactly those of a SplinesModel with the same order and knots.", "quantifier": "all orders, knot lists, parameters and x, also outside the range of the knots", "why_tests_cant": "the normalisation is a linear system in sample points; that it holds between these points and that no function is lost cannot be seen from values at points", "anchors": ["BayesicFitting/source/BasicSplinesModel.py:BasicSplinesModel.normalizeBasis", "BayesicFitting/source/BasicSplinesModel.py:BasicSplinesModel.makeBaseBasis", "BayesicFitting/source/SplinesModel.py:SplinesModel.basePartial"]}
{"id": "C77", "title": "Softmax outputs are probabilities; its partials and derivative are exact", "statement": "With normalisation the outputs of a softmax network are probabilities for all inputs and connections: each is between 0 and 1 and (for more than one output) they add up to 1. The partials to each connection and offset, and the derivative to each input, are the derivatives of the outputs. What is added alike to all outputs has no influence.", "quantifier": "all inputs, all numbers of inputs and outputs, with and without offset, all transfer functions offered, all parameter values", "why_tests_cant": "a test checks a few parameter sets at finite differences; the identity must hold for any size of net and any parameters", "anchors": ["BayesicFitting/source/SoftMaxModel.py:SoftMaxModel.baseResult", "BayesicFitting/source/SoftMaxModel.py:SoftMaxModel.basePartial", "BayesicFitting/source/SoftMaxModel.py:SoftMaxModel.baseDerivative", "BayesicFitting/source/NeuralNetUtilities.py:NeuralNetUtilities.softmax"]}
{"id": "C78", "title": "Surface splines are all products of splines, and are named accordingly", "statement": "A surface splines model has one parameter for every combination of a spline in each of its dimensions; the partial to it is the product of these splines, and the result is linear in the parameters. The name of a parameter shows its combination.", "quantifier": "all numbers of dimensions, all orders and all knots in each dimension, all inputs and parameters", "why_tests_cant": "the number of dimensions and combinations is unbounded; tests try two dimensions with few knots", "anchors": ["BayesicFitting/source/SurfaceSplinesModel.py:SurfaceSplinesModel.basePartial", "BayesicFitting/source/SurfaceSplinesModel.py:SurfaceSplinesModel.baseParameterName"]}
{"id": "C79", "title": "Free shapes: a pixel is a shifted shape, constants are fitted exactly", "statement": "In a free shape model the partial to a pixel is the shape at the place of the pixel, whatever other pixels are asked for. With the same value in all pixels the result is constant away from the edges, for each number of convolutions. In the default model pixel k runs from k to k+1, as documented.", "quantifier": "all inputs in the domain, all numbers of pixels, all subsets of parameters, all numbers of convolutions from 0 to 6, all centers and ranges", "why_tests_cant": "it must hold at every real input, also between and at the borders of pixels", "anchors": ["BayesicFitting/source/FreeShapeModel.py:FreeShapeModel.basePartial", "BayesicFitting/source/FreeShapeModel.py:FreeShapeModel.baseResult", "BayesicFitting/source/Tophat.py:Tophat.result"]}
{"id": "C80", "title": "B-splines are non-negative, local, add up to one, and their derivative is exact", "statement": "For any increasing knots and any order, the partials of a B-splines model at an x between the first and the last knot are non-negative and add up to 1, so that the result stays between the smallest and the largest parameter; a parameter has influence on order+1 intervals only; at the end knots the result is the first and the last parameter. The derivative to x is that of the result. Outside the knots it raises.", "quantifier": "all increasing knots, all orders, all x, all parameters", "why_tests_cant": "a recursion of arbitrary depth over arbitrary knots; tests see one order, a few knots and sampled x, and miss the ends", "anchors": ["BayesicFitting/source/BSplinesModel.py:BSplinesModel.basePartial", "BayesicFitting/source/BSplinesModel.py:BSplinesModel.baseDerivative", "BayesicFitting/source/bspline.py:Bspline.__basis", "BayesicFitting/source/bspline.py:Bspline.diff", "BayesicFitting/source/splinelab.py:augknt"]}
{"id": "C81", "title": "B-splines and splines models describe the same functions, with unique parameters", "statement": "Over the range of the knots the functions of a B-splines model are exactly those of a splines model with the same knots and order: whatever the one can fit, the other can too. No two sets of parameters of a B-splines model give the same function. The result is order-1 times continuously differentiable, also at the knots.", "quantifier": "all increasing knots, all orders, all functions and all parameters", "why_tests_cant": "equality of two infinite sets of functions cannot be tested", "anchors": ["BayesicFitting/source/BSplinesModel.py:BSplinesModel.basePartial", "BayesicFitting/source/SplinesModel.py:SplinesModel.basePartial", "BayesicFitting/source/bspline.py:Bspline.__basis"]}
{"id": "C82", "title": "The best noise scale has the largest likelihood", "statement": "The noise scale that an error distribution computes from the residuals is the scale with the largest likelihood for the given parameters; every other scale has a smaller one.", "quantifier": "all data, weights and parameters with some noise, all other scales", "why_tests_cant": "an optimum over all scales", "anchors": ["BayesicFitting/source/GaussErrorDistribution.py:GaussErrorDistribution.getScale", "BayesicFitting/source/LaplaceErrorDistribution.py:LaplaceErrorDistribution.getScale", "BayesicFitting/source/ExponentialErrorDistribution.py:ExponentialErrorDistribution.getScale", "BayesicFitting/source/UniformErrorDistribution.py:UniformErrorDistribution.getScale", "BayesicFitting/source/CauchyErrorDistribution.py:CauchyErrorDistribution.getScale"]}
{"id": "C83", "title": "The sigma of a noise scale is the standard deviation", "statement": "The number that an error distribution returns as the sigma for a scale is the standard deviation of the distribution with that scale, which is the second moment of the density the likelihood is made of.", "quantifier": "all scales and powers", "why_tests_cant": "an integral over an unbounded range", "anchors": ["BayesicFitting/source/GaussErrorDistribution.py:GaussErrorDistribution.toSigma", "BayesicFitting/source/LaplaceErrorDistribution.py:LaplaceErrorDistribution.toSigma", "BayesicFitting/source/ExponentialErrorDistribution.py:ExponentialErrorDistribution.toSigma", "BayesicFitting/source/UniformErrorDistribution.py:UniformErrorDistribution.toSigma", "BayesicFitting/source/CauchyErrorDistribution.py:CauchyErrorDistribution.toSigma"]}
{"id": "C84", "title": "Maximum likelihood fitters minimise what they say, with its true gradient", "statement": "A fitter that minimises chi-squared or minus the log likelihood evaluates it at the parameters of the model in which only those that are fitted have been replaced; the gradient and the hessian it hands to the minimiser are those of that function.", "quantifier": "all models, data, weights, accuracies, kept parameters and trial values, all error distributions", "why_tests_cant": "derivatives at every point, for every choice of kept parameters", "anchors": ["BayesicFitting/source/MaxLikelihoodFitter.py:MaxLikelihoodFitter.makeFuncs", "BayesicFitting/source/MaxLikelihoodFitter.py:_Chisq.func", "BayesicFitting/source/MaxLikelihoodFitter.py:_Chisq.dfunc", "BayesicFitting/source/MaxLikelihoodFitter.py:_Chisq.hessian", "BayesicFitting/source/MaxLikelihoodFitter.py:_LogL.func", "BayesicFitting/source/MaxLikelihoodFitter.py:_LogL.dfunc", "BayesicFitting/source/MaxLikelihoodFitter.py:_LogL.hessian", "BayesicFitting/source/BaseFitter.py:BaseFitter.insertParameters", "BayesicFitting/source/GaussErrorDistribution.py:GaussErrorDistribution.hessianLogL"]}
{"id": "C85", "title": "Scale and likelihood after a maximum likelihood fit", "statement": "After a maximum likelihood fit the log likelihood is that of the data under the error distribution at the fitted parameters; the noise scale is the standard deviation of the best scale; with automatic scaling the likelihood is the largest over the scales; asking for the one does not change the other.", "quantifier": "all data, weights and accuracies, all error distributions, all parameters", "why_tests_cant": "must hold for all data and all orders of the questions", "anchors": ["BayesicFitting/source/MaxLikelihoodFitter.py:MaxLikelihoodFitter.getScale", "BayesicFitting/source/MaxLikelihoodFitter.py:MaxLikelihoodFitter.getLogLikelihood", "BayesicFitting/source/MaxLikelihoodFitter.py:_LogL.getScale"]}
{"id": "C86", "title": "A scipy fit respects limits and kept parameters", "statement": "A fit by one of the methods of scipy leaves kept parameters at their values and returns parameters within the limits of the model.", "quantifier": "all functions, parameters, limits and choices of kept parameters, any minimiser that meets its documentation", "why_tests_cant": "the minimiser is external and the limits are arbitrary", "anchors": ["BayesicFitting/source/ScipyFitter.py:ScipyFitter.fit"]}
{"id": "C87", "title": "Orbits follow Kepler's laws", "statement": "For every eccentricity below one and every time Kepler's equation has one solution; when an iteration of the solver stops because it has converged its result is within 4e-8/(1-e) of that solution; with the solution the orbit is an ellipse with the focus in the origin, equal areas are swept in equal times, the orbit repeats after the period, and the phase is that of the periastron.", "quantifier": "all eccentricities in [0,1), all times, periods, semi major axes and phases", "why_tests_cant": "an iteration to convergence over a continuum of eccentricities and times, and differential laws", "anchors": ["BayesicFitting/source/Kepplers2ndLaw.py:Kepplers2ndLaw.eccentricAnomaly", "BayesicFitting/source/Kepplers2ndLaw.py:Kepplers2ndLaw.eccentricAnomaly0", "BayesicFitting/source/Kepplers2ndLaw.py:Kepplers2ndLaw.eccentricAnomaly1", "BayesicFitting/source/Kepplers2ndLaw.py:Kepplers2ndLaw.radiusAndTrueAnomaly", "BayesicFitting/source/Kepplers2ndLaw.py:Kepplers2ndLaw.meanAnomaly"]}
{"id": "C88", "title": "Radial velocities are the velocity along the line of sight, with true derivatives", "statement": "The result of a radial velocity model is the time derivative of the distance along the line of sight of a body in the orbit of its parameters; its partials and its derivative are those of the result; the semi major axis and minimum mass it reports are those of that orbit.", "quantifier": "all times and parameters with eccentricity below one and a nonzero period", "why_tests_cant": "derivatives at every point through the solution of an implicit equation", "anchors": ["BayesicFitting/source/RadialVelocityModel.py:RadialVelocityModel.baseResult", "BayesicFitting/source/RadialVelocityModel.py:RadialVelocityModel.basePartial", "BayesicFitting/source/RadialVelocityModel.py:RadialVelocityModel.baseDerivative", "BayesicFitting/source/RadialVelocityModel.py:RadialVelocityModel.semimajoraxis", "BayesicFitting/source/RadialVelocityModel.py:RadialVelocityModel.getMsini", "BayesicFitting/source/Kepplers2ndLaw.py:Kepplers2ndLaw.dvdpar"]}
{"id": "C89", "title": "Stellar orbits: projection on the sky, coordinates and derivatives", "statement": "The position a stellar orbit model returns is the orbit in its plane, turned by the longitude of the periastron, foreshortened by the inclination and turned to the position angle of the node; conversion to rectangular coordinates and back returns the same position; partials and derivatives, in either kind of coordinates, are those of the position.", "quantifier": "all times and parameters with eccentricity below one and a nonzero period", "why_tests_cant": "derivatives at every point through an implicit equation and an angle with a branch cut", "anchors": ["BayesicFitting/source/StellarOrbitModel.py:StellarOrbitModel.baseResult", "BayesicFitting/source/StellarOrbitModel.py:StellarOrbitModel.basePartial", "BayesicFitting/source/StellarOrbitModel.py:StellarOrbitModel.baseDerivative", "BayesicFitting/source/StellarOrbitModel.py:StellarOrbitModel.toRect", "BayesicFitting/source/StellarOrbitModel.py:StellarOrbitModel.toSpher"]}
{"id": "C90", "title": "Kernels in two dimensions: distance, shapes and derivatives", "statement": "The result of a two-dimensional kernel model is its amplitude times the kernel at the distance to the centre, measured in widths along two orthogonal axes turned by the angle; the circular and elliptic shapes are special cases of the rotated one; partials and derivatives are those of the result.", "quantifier": "all kernels, shapes, positions and parameters with nonzero widths", "why_tests_cant": "derivatives at every point of the plane for every kernel and shape", "anchors": ["BayesicFitting/source/Kernel2dModel.py:Kernel2dModel.baseResult", "BayesicFitting/source/Kernel2dModel.py:Kernel2dModel.basePartial", "BayesicFitting/source/Kernel2dModel.py:Kernel2dModel.baseDerivative", "BayesicFitting/source/Kernel2dModel.py:Kernel2dModel.parseShape"]}
{"id": "C91", "title": "Growing and shrinking polynomials and harmonics stay what they are", "statement": "After any history of births and deaths a dynamic polynomial (harmonic) model is a polynomial (harmonic series) of a degree (order) between its limits, with the parameters as coefficients; a birth adds one term of the next degree, a birth with zeros changes no value; a death drops the last term; other models of the chain are not affected; the model can be copied at any moment.", "quantifier": "all histories of births and deaths with any values, all limits, all chains, all x", "why_tests_cant": "histories have no bound and the result must be right after each", "anchors": ["BayesicFitting/source/PolynomialDynamicModel.py:PolynomialDynamicModel.__init__", "BayesicFitting/source/HarmonicDynamicModel.py:HarmonicDynamicModel.__init__", "BayesicFitting/source/HarmonicDynamicModel.py:HarmonicDynamicModel.copy", "BayesicFitting/source/Dynamic.py:Dynamic.grow", "BayesicFitting/source/Dynamic.py:Dynamic.shrink"]}
{"id": "C92", "title": "Births and deaths follow the grow prior", "statement": "Births and deaths of components are decided by the grow prior of the dynamic model: the more components there are, compared to the grow prior, the rarer a birth and the more frequent a death, none outside the limits; and when the data do not decide, the number of components is distributed as the grow prior.", "quantifier": "all numbers of components, all limits, with and without a maximum", "why_tests_cant": "a statement about probabilities and an equilibrium, for all limits", "anchors": ["BayesicFitting/source/BirthEngine.py:BirthEngine.execute", "BayesicFitting/source/DeathEngine.py:DeathEngine.execute", "BayesicFitting/source/Dynamic.py:Dynamic.setGrowPrior"]}
{"id": "C93", "title": "A curve fit minimises chi squared, respects limits and kept parameters", "statement": "A fit through curve_fit ends in a minimum of the weighted chi squared, including the extra measurements of normalize, over the parameters within the limits; kept parameters have their given values, for that fit only; data with weight zero do not count.", "quantifier": "all models with true partials, data, weights, accuracies, limits and choices of kept parameters; any curve_fit that meets its documentation", "why_tests_cant": "the minimiser is external; must hold for all models, data and histories of fits", "anchors": ["BayesicFitting/source/CurveFitter.py:CurveFitter.fit", "BayesicFitting/source/CurveFitter.py:CurveFitter.result", "BayesicFitting/source/CurveFitter.py:CurveFitter.jacobian"]}
{"id": "C94", "title": "The phantom sampler keeps its ensemble above a rising floor and loses no walkers", "statement": "After every iteration of the phantom sampler there are as many walkers as asked for, none below the floor, and the floor does not go down; the evidence is the sum of the weights of the stored samples; and a walker leaves the ensemble only when it is stored as a posterior sample or when it was newly added in the same iteration.", "quantifier": "all ensemble sizes and steps that the constructor accepts, all histories of the engines and of the random generator, linear and other models", "why_tests_cant": "the ensemble after many random iterations; all draws and all sizes", "anchors": ["BayesicFitting/source/PhantomSampler.py:PhantomSampler.updateWalkers", "BayesicFitting/source/PhantomSampler.py:PhantomSampler.__getattr__", "BayesicFitting/source/NestedSampler.py:NestedSampler.sample", "BayesicFitting/source/Explorer.py:Explorer.exploreWalker"]}
{"id": "C95", "title": "Hyperparameters with limits are fitted, others have their given value; copies are independent", "statement": "A hyperparameter of an error distribution (scale, power, fraction) is fitted exactly when limits are set on it, in the constructor or later; otherwise it has the given value, also after it has been told to keep a value. A copy has the same hyperparameters, values and limits, and what is done to the copy does not change the original.", "quantifier": "all distributions with a scale, exponential and mixed ones; all values and limits; any other distributions made before", "why_tests_cant": "sharing of objects between distributions over any sequence of constructions, settings and copies", "anchors": ["BayesicFitting/source/ScaledErrorDistribution.py:ScaledErrorDistribution.__init__", "BayesicFitting/source/ScaledErrorDistribution.py:ScaledErrorDistribution.setLimits", "BayesicFitting/source/ExponentialErrorDistribution.py:ExponentialErrorDistribution.__init__", "BayesicFitting/source/MixedErrorDistribution.py:MixedErrorDistribution.__init__", "BayesicFitting/source/ErrorDistribution.py:ErrorDistribution.keepFixed", "BayesicFitting/source/HyperParameter.py:HyperParameter.__init__", "BayesicFitting/source/NoiseScale.py:NoiseScale.__init__"]}
{"id": "C96", "title": "The likelihood that ModelDistribution gives to a model is its log evidence", "statement": "Sampling over models with an EvidenceProblem, the likelihood of a model that ModelDistribution returns is the natural logarithm of the evidence of that model for the data and the weights of the problem and the noise scale of the distribution, whichever arbiter finds it; and the parameters it leaves in the walker are those that fit the (weighted) data best.", "quantifier": "all linear models with proper priors, all data, weights, noise scales and limits, all arbiters that are modelled", "why_tests_cant": "an evidence off by a factor or computed without the weights still ranks most models well; tests compare with other runs of the same code", "anchors": ["BayesicFitting/source/ModelDistribution.py:ModelDistribution.logLikelihood_alt", "BayesicFitting/source/EvidenceProblem.py:EvidenceProblem", "BayesicFitting/source/BaseFitter.py:BaseFitter.getLogZ"]}
{"id": "C97", "title": "The first walkers of a dynamic model are drawn from the priors", "statement": "At the start of nested sampling of a dynamic model every walker has a model that was grown from the given one to a number of components that follows the grow prior and stays within the maximum. Its list of parameters has grown with it; the new parameters are fitted, what was fitted before is fitted at its new place, and nothing else is. Each fitted parameter comes from its own prior by a draw of its own; what is kept fixed, a fixed noise scale too, has its given value. The likelihood of the walker is finite.", "quantifier": "all chains with one dynamic model at any place, all sets of fitted parameters and hyperparameters, all sequences of random numbers, all likelihoods, any number of failed trials", "why_tests_cant": "The growing, the renumbering of the fit index and the trials are loops driven by random numbers; a test sees one seed, and mostly a dynamic model alone in its chain with nothing fixed.", "anchors": ["BayesicFitting/source/StartEngine.py:StartEngine.execute", "BayesicFitting/source/Dynamic.py:Dynamic.grow", "BayesicFitting/source/Dynamic.py:Dynamic.alterFitindex", "BayesicFitting/source/Dynamic.py:Dynamic.setGrowPrior"]}
{"id": "C98", "title": "No random number is used twice in a run", "statement": "Every iteration of the nested samplers goes on in the sequence of random numbers where the one before it stopped. In NestedSampler each walker that is replaced has at least two numbers of its own, one for the choice of the walker that is copied and one for the order of the engines, besides those the engines take; in PhantomSampler an iteration takes at least one, and three once the ensemble has its size.", "quantifier": "all ensembles, numbers of discarded walkers, engines, generators of random numbers, numbers of iterations", "why_tests_cant": "A run with a reused number looks like any other run; that it never happens is a statement about all iterations.", "anchors": ["BayesicFitting/source/NestedSampler.py:NestedSampler.updateWalkers", "BayesicFitting/source/NestedSampler.py:NestedSampler.copyWalker", "BayesicFitting/source/PhantomSampler.py:PhantomSampler.updateWalkers", "BayesicFitting/source/Explorer.py:Explorer.exploreWalker"]}
{"id": "C99", "title": "The football model: partials, defaults, home advantage, priors", "statement": "For every complexity from 1 to 5 FootballModel returns for a match the derivatives of both scores to the parameters of all teams. Parameters at their documented defaults have no effect: the scores are those of the model of lower complexity. At complexity 4 the scores obey the documented equations. Without home advantage exchanging home and away exchanges the scores; a larger home advantage raises the score of the home team and lowers that of the other; inside the limits all scores are positive. A parameter gets the prior of its kind, whatever the team, also in a compound model. All this holds with fixed parameters too.", "quantifier": "all complexities, numbers of teams, pairs of teams, parameter values, chains of models", "why_tests_cant": "The partials are long hand copied formulas in up to ten parameters; a test compares them at a few values with numerical derivatives.", "anchors": ["BayesicFitting/source/FootballModel.py:FootballModel.baseResult", "BayesicFitting/source/FootballModel.py:FootballModel.basePartial", "BayesicFitting/source/FootballModel.py:FootballModel.getPrior", "BayesicFitting/source/FixedModel.py:FixedModel.partial"]}
{"id": "C100", "title": "The nested solver returns a tour through all cities and the best one it has", "statement": "solve() of NestedSolver returns an ordering of all cities, each once, with the likelihood of that ordering; so are all samples; the samples rise in likelihood up to the final ensemble and what is returned is not worse than any of them; the ensemble keeps its size and never goes below the level. The best ordering seen is returned, cities can be kept at their place, every documented engine and distribution can be used and a walker that cannot move stays where it is.", "quantifier": "all sets of cities and distances, all lists of ordering engines, all sequences of random numbers, all options and any number of iterations", "why_tests_cant": "the returned ordering depends on all random numbers of a run and on the places at which engines store their results; tests run a few seeds on small sets of cities", "anchors": ["BayesicFitting/source/NestedSolver.py:NestedSolver.solve", "BayesicFitting/source/NestedSolver.py:NestedSolver.initWalkers", "BayesicFitting/source/NestedSolver.py:NestedSolver.setErrorDistribution", "BayesicFitting/source/NestedSolver.py:NestedSolver.setEngines", "BayesicFitting/source/OrderEngine.py:OrderEngine.execute", "BayesicFitting/source/StartOrderEngine.py:StartOrderEngine.execute"]}
{"id": "C101", "title": "Splines with a variable set of knots stay a spline", "statement": "Whatever sequence of births, deaths and variations a SplinesDynamicModel goes through, with whatever random numbers, its knots stay in ascending order with more than the minimum distance between them, the outer knots stay in place, the number of knots stays between minKnots and maxKnots, the number of parameters and the basis fit the knots, and the parameters of other models in the chain are not touched; a birth splits one parameter in two, a death joins two into one within the limits of its prior, a variation changes no parameter. When there is room the operations end successfully, and a copy is the same model.", "quantifier": "all knots, orders, positions in a chain, random numbers and sequences of grow, shrink and vary", "why_tests_cant": "The operations follow one another in any order for any length with random positions; tests see a few of them.", "anchors": ["BayesicFitting/source/SplinesDynamicModel.py:SplinesDynamicModel.grow", "BayesicFitting/source/SplinesDynamicModel.py:SplinesDynamicModel.shrink", "BayesicFitting/source/SplinesDynamicModel.py:SplinesDynamicModel.vary", "BayesicFitting/source/SplinesDynamicModel.py:SplinesDynamicModel.varyAlt", "BayesicFitting/source/SplinesDynamicModel.py:SplinesDynamicModel.copy", "BayesicFitting/source/Dynamic.py:Dynamic.alterParameters", "BayesicFitting/source/Dynamic.py:Dynamic.alterFitindex"]}
{"id": "C102", "title": "Monte Carlo error bars are the spread that the covariance matrix implies", "statement": "monteCarloError returns for every input a non-negative error: the standard deviation of the model over the random variants, in which only the fitted parameters are varied, by independent steps with the given covariance matrix. For a model that is linear in its parameters the square of the error is on average the variance that follows from the covariance matrix. The same call gives the same errors.", "quantifier": "all models, parameters, covariance matrices, lists of fitted parameters, inputs and random numbers; for the average: over the distribution of the random numbers", "why_tests_cant": "Random numbers; a bias of a few percent in a random quantity is not seen in a test.", "anchors": ["BayesicFitting/source/MonteCarlo.py:MonteCarlo.getError", "BayesicFitting/source/MonteCarlo.py:MonteCarlo.randomVariant", "BayesicFitting/source/MonteCarlo.py:MonteCarlo.decompose", "BayesicFitting/source/BaseFitter.py:BaseFitter.monteCarloError"]}
{"id": "C103", "title": "Numeric derivatives are close to the true ones", "statement": "When a model has no partial derivatives of its own (or when numeric ones are asked for) the partials returned have exactly one column for each free parameter, in their order, and each column differs from the true derivative of the result to that parameter by at most M dp\u00b2/24, where dp is the step in deltaP that belongs to it and M bounds the third derivative. The numeric derivative to x is within M dx\u00b2/6, the numeric partials of the log-likelihood (the fallback when the exact ones raise) within M deltaP\u00b2/6. The wrappers UserModel and AstropyModel deliver those same partials and derivatives, also when parameters are fixed.", "quantifier": "all models without partials, all parameter values, all lists of steps, all choices of fixed parameters (numbers or models), all thrice differentiable results", "why_tests_cant": "A test compares at a few points with a loose tolerance; the bound, the pairing of steps and parameters and the interaction with fixed and positive parameters must hold everywhere.", "anchors": ["BayesicFitting/source/FixedModel.py:FixedModel.numPartial", "BayesicFitting/source/FixedModel.py:FixedModel.basePartial", "BayesicFitting/source/FixedModel.py:FixedModel.numDerivative", "BayesicFitting/source/Model.py:Model.strictNumericPartial", "BayesicFitting/source/ErrorDistribution.py:ErrorDistribution.numPartialLogL", "BayesicFitting/source/UserModel.py:UserModel", "BayesicFitting/source/AstropyModel.py:AstropyModel", "BayesicFitting/source/BaseModel.py:BaseModel.checkParameter"]}
{"id": "C104", "title": "Calling sample again on the same NestedSampler", "statement": "Every call of NestedSampler.sample() returns the evidence of its own run: the sum of the weights of the samples which that call added, whatever the sampler did before. After the call the weights of the samples in the list sum to one. The samples of a call on a new sampler are exactly the samples in the list; for later calls the list keeps the old samples and mixes them with the new ones in the ratio 1 to Z, with Z the evidence of the call. A call restarts the iterations.", "quantifier": "Every number of calls of sample on one sampler, every ensemble, number of discarded walkers, stopping rule, engines, seeds and models, linear or not.", "why_tests_cant": "The mixture over calls depends on the values of the evidences and the number of calls; a test sees one run on one seed.", "anchors": ["BayesicFitting/source/NestedSampler.py:NestedSampler.sample", "BayesicFitting/source/NestedSampler.py:NestedSampler.__init__", "BayesicFitting/source/NestedSampler.py:NestedSampler.updateEvidence", "BayesicFitting/source/SampleList.py:SampleList.normalize"]}
{"id": "C105", "title": "Problem, error distribution and engines of a sampler belong together", "statement": "A NestedSampler made for a problem has the default error distribution and engines of that problem (for dynamic and modifiable models also those that change the number of parameters or the structure), or those asked for by name in any case; unknown names raise and leave the sampler unchanged. Whatever is done with the sampler afterwards, all its engines work with its current error distribution, share one collection of phantoms and one list of walkers, each engine has a seed of its own drawn from the generator of the sampler, and the fitter asked for by bestBoost is the one used. The number of data and the sum of the weights of a problem are those of its present data and weights.", "quantifier": "Every problem class, model, combination of constructor arguments, and every sequence of setProblem, setErrorDistribution, setEngines, sample and attribute assignments, including those that raise.", "why_tests_cant": "The consistency is an invariant over all orders in which the setters can be called; a test follows one order.", "anchors": ["BayesicFitting/source/NestedSampler.py:NestedSampler.__init__", "BayesicFitting/source/NestedSampler.py:NestedSampler.setProblem", "BayesicFitting/source/NestedSampler.py:NestedSampler.setErrorDistribution", "BayesicFitting/source/NestedSampler.py:NestedSampler.setEngines", "BayesicFitting/source/NestedSampler.py:NestedSampler.setInitialEngine", "BayesicFitting/source/NestedSampler.py:NestedSampler.initSample", "BayesicFitting/source/EvidenceProblem.py:EvidenceProblem", "BayesicFitting/source/Problem.py:Problem.__getattr__"]}
{"id": "C106", "title": "Chains of models with several inputs and outputs", "statement": "When models with any number of inputs and outputs are combined by piping, adding, subtracting, multiplying and dividing, the result of the chain is in every data point the function that is read from left to right, and the derivatives to the inputs and the partial derivatives to the parameters are, in the documented array forms, those of that function.", "quantifier": "all chains of models of any length, all numbers of inputs, outputs, parameters and data points, all values of them", "why_tests_cant": "the array form and the chain rule differ for each combination of dimensions, and mistakes in broadcasting only show for particular numbers of points", "anchors": ["BayesicFitting/source/Model.py:Model.appendModel", "BayesicFitting/source/Model.py:Model._recursiveResult", "BayesicFitting/source/Model.py:Model._recursiveDerivative", "BayesicFitting/source/Model.py:Model._recursivePartial", "BayesicFitting/source/Model.py:Model.selectPipe", "BayesicFitting/source/Model.py:Model.pipe_0", "BayesicFitting/source/FixedModel.py:FixedModel.numDerivative"]}
{"id": "C107", "title": "Summaries of the posterior samples", "statement": "What is read from the list of posterior samples is what it says: the parameters, hyperparameters and nuisance parameters are the weighted means over the samples that are in the list now and the standard deviations belong to them; a circular parameter gets the average and the standard deviation on its circle, within its limits; median, modus and maximum likelihood select the sample that deserves the name; the average of the model and its error are the weighted mean and standard deviation of the results at the points asked for; and none of it depends on what was read before.", "quantifier": "all lists of samples, weights and parameter values, all histories of reads and of changes to the list, all circular priors with limits in order, all models and points", "why_tests_cant": "Tests read a few attributes once, at the end of a run; values that are kept from an earlier read, names that can only be read after others, and averages across the point where a circle closes need other orders and other data.", "anchors": ["BayesicFitting/source/SampleList.py:SampleList.__getattr__", "BayesicFitting/source/SampleList.py:SampleList.getParameters", "BayesicFitting/source/SampleList.py:SampleList.averstd", "BayesicFitting/source/SampleList.py:SampleList.average", "BayesicFitting/source/SampleList.py:SampleList.monteCarloError", "BayesicFitting/source/Tools.py:average", "BayesicFitting/source/Walker.py:Walker.toSample", "BayesicFitting/source/NestedSampler.py:NestedSampler.sample"]}
{"id": "C108", "title": "Exploring several walkers in threads gives a valid ensemble for every schedule", "statement": "When walkers are explored in threads, then for every order in which the threads make their accesses, and at every moment: the ensemble keeps its size; a thread never changes the walker of another; walkers that are not explored stay as they are; every explored walker is as it was or not below the level of likelihood; a thread that ends without an error leaves a walker that is not below the level; the phantoms stay in order and contain nothing but what was there and what the engines made. Without threads no phantom is lost. The call raises when a thread fails. The counters of the engines are the sums over the threads. (Not true in the code: phantoms of one thread can be overwritten by another, and so can appended walkers when several are explored at once; the result depends on the schedule although the seed is fixed; after one failure all later calls raise; the boost of the best walker is off in threads.)", "quantifier": "every number of threads, every schedule of their accesses to the shared walkers, phantoms and generator, every sequence of engines and what they propose, every sequence of failures", "why_tests_cant": "A test runs under the few schedules the operating system happens to choose; races show up in rare schedules only, and in CPython with its global lock hardly ever in a short test.", "anchors": ["BayesicFitting/source/Explorer.py:Explorer.explore", "BayesicFitting/source/Explorer.py:Explorer.exploreWalker", "BayesicFitting/source/Explorer.py:ExplorerThread.run", "BayesicFitting/source/Engine.py:Engine.setWalker", "BayesicFitting/source/Engine.py:Engine.copy", "BayesicFitting/source/PhantomCollection.py:PhantomCollection.storeItems", "BayesicFitting/source/WalkerList.py:WalkerList.setWalker"]}
{"id": "C109", "title": "Copies from the phantoms are above the level, and a boost never makes a walker worse", "statement": "With copymode 1 each discarded walker is replaced by a copy of a phantom that is strictly above the level of likelihood; it keeps its place and id and no other walker changes. For dynamic models every phantom of every number of parameters has its own number in the draw. As long as one phantom is above the level the copies are made. With bestBoost the likelihood of a walker never goes down and stays the one of its parameters; only a walker that is better than all phantoms is changed, and with one hyperparameter the number of parameters stays the same. (Not true in the code: it hangs when no phantom is above the level; the fitter given as bestBoost is never used; kept parameters and priors are ignored by the boost; it does nothing for distributions without hyperparameters and makes a list that is too short for those with two.)", "quantifier": "every list of phantoms, level, ensemble and stream of random numbers; every fitter, likelihood, error distribution and walker", "why_tests_cant": "A test has a few seeds and a model or two; whether each number leads to a phantom of its own, whether the loop ends, and what a boost does to kept parameters depends on the phantoms, the draws and the fitter.", "anchors": ["BayesicFitting/source/NestedSampler.py:NestedSampler.copyWalkerFromPhantoms", "BayesicFitting/source/NestedSampler.py:NestedSampler.copyWalkerFromDynamicPhantoms", "BayesicFitting/source/NestedSampler.py:NestedSampler.__setattr__", "BayesicFitting/source/Engine.py:Engine.doBoost", "BayesicFitting/source/Engine.py:Engine.bestBoost", "BayesicFitting/source/PhantomCollection.py:PhantomCollection.lengthDynamic"]}
{"id": "C110", "title": "The units that a model gives for its parameters fit its formula", "statement": "getParameterUnit(k) gives the unit of parameter k. When x and y are expressed in other units, and each parameter (and each attribute such as a period, a frequency or knots) is converted according to its unit, with the radian as a pure number, the model gives the converted result, for all x and all parameters. This carries over to sums, differences, products and quotients of models and to repeating models, and the integral over x converts with getIntegralUnit. There is an error exactly when there is no such parameter.", "quantifier": "all changes of units, all x and parameters, all lengths of chains, all degrees, orders and knots", "why_tests_cant": "a unit is right only if the formula scales for every input; tests compare the unit of a few parameters with what the code says", "anchors": ["BayesicFitting/source/Model.py:Model.getParameterUnit", "BayesicFitting/source/Model.py:Model.getIntegralUnit", "BayesicFitting/source/BaseModel.py:BaseModel.baseParameterUnit", "BayesicFitting/source/ProductModel.py:ProductModel.baseParameterUnit", "BayesicFitting/source/PolySurfaceModel.py:PolySurfaceModel.baseParameterUnit", "BayesicFitting/source/PseudoVoigtModel.py:PseudoVoigtModel.baseParameterUnit", "BayesicFitting/source/StellarOrbitModel.py:StellarOrbitModel.baseParameterUnit"]}
{"id": "C111", "title": "A fit within limits", "statement": "limitsFit first fits without limits. If all parameters are inside the limits of their priors, or when there are no priors, it is the same as fit. Otherwise each parameter that went beyond a limit is fixed at that limit and the others are fitted again: the result has these parameters at their limits, has the parameters to be kept at the values asked for, is the best one with these values, and is both returned and set in the model; the settings of the fitter are as before the call. The parameters returned are inside the limits, and are the best ones inside the limits.", "quantifier": "all models, data, limits, starting states of the fitter and dictionaries of parameters to be kept, in the constructor or in the call", "why_tests_cant": "tests look at one or two sets of limits; what happens when several limits are transgressed, or in the second fit, or together with kept parameters, is not seen", "anchors": ["BayesicFitting/source/BaseFitter.py:BaseFitter.limitsFit", "BayesicFitting/source/BaseFitter.py:BaseFitter.keepFixed", "BayesicFitting/source/Fitter.py:Fitter.fit"]}
{"id": "C112", "title": "Both ways of calculating the gradient of the log likelihood agree", "statement": "For every error distribution partialLogL_alt returns the same list as partialLogL: one element for each index in the list of fitted parameters, in that order, being the derivative of the log likelihood to that parameter or hyperparameter.", "quantifier": "all problems, data, weights, accuracies, parameters and lists of fitted parameters", "why_tests_cant": "tests compare the two for a few parameters with all hyperparameters fitted; weights, accuracies and fixed hyperparameters change the places where the elements are stored", "anchors": ["BayesicFitting/source/GaussErrorDistribution.py:GaussErrorDistribution.partialLogL_alt", "BayesicFitting/source/CauchyErrorDistribution.py:CauchyErrorDistribution.partialLogL_alt", "BayesicFitting/source/ExponentialErrorDistribution.py:ExponentialErrorDistribution.partialLogL_alt", "BayesicFitting/source/UniformErrorDistribution.py:UniformErrorDistribution.partialLogL_alt", "BayesicFitting/source/ErrorDistribution.py:ErrorDistribution.partialLogL"]}
{"id": "C113", "title": "Every parameter has a name that tells which one it is", "statement": "The name of a parameter of a compound model is the one that the constituent model gives to it, wherever it is in the chain or between brackets, and asking beyond the last parameter is an IndexError; with fixed parameters the names are those of the parameters that are left, followed by those of the models that replace parameters, in the order in which the parameters are used; copies that are tied together or repeated have the number of the copy in the name unless the parameter is shared; after births and deaths there are as many names as parameters; no two parameters of a model have the same name; and the value of a parameter can be read as an attribute with its name.", "quantifier": "all chains of models, all sets of fixed parameters, all numbers of copies and ties, all histories of births and deaths", "why_tests_cant": "names are composed from chains, dictionaries and histories of any length; tests print them and look at them", "anchors": ["BayesicFitting/source/Model.py:Model.getParameterName", "BayesicFitting/source/BaseModel.py:BaseModel.baseParameterName", "BayesicFitting/source/BaseModel.py:BaseModel.__getattr__", "BayesicFitting/source/FixedModel.py:FixedModel.selectNames", "BayesicFitting/source/CombiModel.py:CombiModel.baseParameterName", "BayesicFitting/source/RepeatingModel.py:RepeatingModel.baseParameterName", "BayesicFitting/source/Dynamic.py:Dynamic.alterParameterNames", "BayesicFitting/source/ProductModel.py:ProductModel.baseParameterName", "BayesicFitting/source/SurfaceSplinesModel.py:SurfaceSplinesModel.baseParameterName", "BayesicFitting/source/FootballModel.py:FootballModel.baseParameterName", "BayesicFitting/source/HarmonicModel.py:HarmonicModel.baseParameterName"]}
{"id": "C114", "title": "A copy of a model has everything the model has, and what is done to one does not change the other", "statement": "The copy of a model is of the same class with the same settings and has the same parameters, standard deviations, priors, names, units, fixed parameters, limits on signs, linear parameters and numbers of parameters as the model itself, whatever happened to the model since it was made; a model that stands for a fixed parameter is copied too. A copy of a dynamic repeating model has its number of components, its range and its grow prior. A prior that is set on a model is not seen in its copies, nor the other way round; a copy starts with the priors of the model at that moment.", "quantifier": "all classes of models, all constructor arguments, all histories of actions on a model, all histories of copies and priors", "why_tests_cant": "what a copy forgets is seen only when the attribute has another value than the default; there are some forty classes with each its own constructor and copy; sharing shows up only in later actions", "anchors": ["BayesicFitting/source/Model.py:Model.__init__", "BayesicFitting/source/Model.py:Model.setPrior", "BayesicFitting/source/FixedModel.py:FixedModel.__init__", "BayesicFitting/source/BaseModel.py:BaseModel.__init__", "BayesicFitting/source/GaussModel.py:GaussModel.copy", "BayesicFitting/source/BSplinesModel.py:BSplinesModel.copy", "BayesicFitting/source/BasicSplinesModel.py:BasicSplinesModel.copy", "BayesicFitting/source/CombiModel.py:CombiModel.copy", "BayesicFitting/source/RepeatingModel.py:RepeatingModel.copy", "BayesicFitting/source/UserModel.py:UserModel.copy", "BayesicFitting/source/HarmonicDynamicModel.py:HarmonicDynamicModel.copy", "BayesicFitting/source/SplinesDynamicModel.py:SplinesDynamicModel.copy", "BayesicFitting/source/Kernel2dModel.py:Kernel2dModel.copy"]}
{"id": "C115", "title": "A model treats a parameter with a forbidden sign or value as the nearest allowed one", "statement": "Some parameters of a model must be positive (like the width of a peak), some must not be zero. The result of a model or chain of models is the value for the proper parameters: zeros that are not allowed are replaced by a tiny number and signs that are not allowed are dropped, for the parameters concerned only and for no others. So the sign of such a parameter does not matter; correctParameters gives the proper parameters; asking for the result a second time gives the same result; an array of positive parameters is left as it is.", "quantifier": "every chain of models, every list of parameters that must be positive or not zero, every combination of models as parameters of models to any depth, every data and parameters", "why_tests_cant": "tests use a few models with one parameter of wrong sign; which entries of an array are touched through views by nested and chained models is a matter of all nestings", "anchors": ["BayesicFitting/source/BaseModel.py:BaseModel.result", "BayesicFitting/source/BaseModel.py:BaseModel.checkParameter", "BayesicFitting/source/BaseModel.py:BaseModel.checkPositive", "BayesicFitting/source/BaseModel.py:BaseModel.checkZeroParameter", "BayesicFitting/source/FixedModel.py:FixedModel.result", "BayesicFitting/source/FixedModel.py:FixedModel.expand", "BayesicFitting/source/Model.py:Model.result", "BayesicFitting/source/Model.py:Model.selectPipe", "BayesicFitting/source/Model.py:Model.correctParameters", "BayesicFitting/source/BaseModel.py:BaseModel.partial"]}
{"id": "C116", "title": "Attributes of models keep their types", "statement": "Assigning a value to an attribute of a model either stores it or raises an exception and leaves the model as it was; no other attribute is changed. After any history of assignments, failed ones among them, each attribute holds a value of its own type, the parameters are none or as many numbers as the model has, and the numbers are those that were assigned, in order. Values of another type, lists with something else in it, and unknown names are refused.", "quantifier": "every class of models with attributes of its own, every attribute, every value (scalars of python and numpy, lists, lists of lists, arrays), every history of assignments", "why_tests_cant": "tests assign a few good values; what numpy makes of mixed lists and what a failed assignment leaves behind depend on all values and histories", "anchors": ["BayesicFitting/source/Tools.py:setAttribute", "BayesicFitting/source/Tools.py:isList", "BayesicFitting/source/Tools.py:isInstance", "BayesicFitting/source/Tools.py:length", "BayesicFitting/source/BaseModel.py:BaseModel.__setattr__", "BayesicFitting/source/FixedModel.py:FixedModel.__setattr__", "BayesicFitting/source/Model.py:Model.__setattr__", "BayesicFitting/source/Dynamic.py:Dynamic.setDynamicAttribute", "BayesicFitting/source/PolynomialModel.py:PolynomialModel.__setattr__", "BayesicFitting/source/SplinesModel.py:SplinesModel.__setattr__", "BayesicFitting/source/SurfaceSplinesModel.py:SurfaceSplinesModel.__setattr__", "BayesicFitting/source/RepeatingModel.py:RepeatingModel.__setattr__", "BayesicFitting/source/Kernel2dModel.py:Kernel2dModel.__setattr__", "BayesicFitting/source/FootballModel.py:FootballModel.__setattr__", "BayesicFitting/source/ConstantModel.py:ConstantModel.__setattr__"]}
{"id": "C117", "title": "Knots made for a set of sites allow interpolation at these sites", "statement": "For sites in ascending order, more than the order of the spline, aptknt returns as many knots in order as are needed for one function per site; the first and last site are repeated once more than the order and the others are averages of inner sites. Every site is inside the range of its own function, and the collocation matrix that spcol makes for them is square and has a positive diagonal, so that there is a spline through any set of values at the sites. Elsewhere each element of the matrix is the derivative of its function at its site, of the order that is the number of times the site occurred before. diff( order ) is that derivative for any order.", "quantifier": "all sets of sites, repeated or not, all orders of splines and of derivatives, all knots", "why_tests_cant": "the condition for interpolation concerns all sites and orders at once; a test interpolates one set of sites and looks at the residuals, or not at the last of them", "anchors": ["BayesicFitting/source/splinelab.py:aveknt", "BayesicFitting/source/splinelab.py:aptknt", "BayesicFitting/source/splinelab.py:knt2mlt", "BayesicFitting/source/splinelab.py:spcol", "BayesicFitting/source/bspline.py:Bspline.diff", "BayesicFitting/source/bspline.py:Bspline.collmat"]}
{"id": "C118", "title": "The history of the samples tells where they come from", "statement": "During a run of the nested sampler the walkers keep the ids of the first ensemble, all different; each iteration stores the lowest walkers as samples, with serial numbers in the order in which they were stored, with the parameters and likelihood of the walker, the id of the walker as parent and the iteration in which the walker was made as start. So at each iteration the samples that were alive, stored afterwards and started before, are as many as the ensemble, and the number that is added to the list of insertions is the rank of the new walker in the ensemble, which takes each value from 1 up to the size of the ensemble for exactly one walker.", "quantifier": "for all ensembles, numbers of discarded walkers, engines, random choices, iterations and sizes at which samples are weeded", "why_tests_cant": "the lineage depends on all copies and moves of the run; a test looks at one run with one set of engines", "anchors": ["BayesicFitting/source/Engine.py:Engine.setWalker", "BayesicFitting/source/NestedSampler.py:NestedSampler.sample", "BayesicFitting/source/NestedSampler.py:NestedSampler.copyWalker", "BayesicFitting/source/SampleList.py:SampleList.add", "BayesicFitting/source/SampleList.py:SampleList.getParentEvolution", "BayesicFitting/source/SampleList.py:SampleList.getStartEvolution", "BayesicFitting/source/SampleList.py:SampleList.getGeneration", "BayesicFitting/source/SampleMovie.py", "BayesicFitting/source/WalkerList.py:WalkerList.firstIndex"]}
{"id": "C119", "title": "A linear fit succeeds precisely when the data determine the parameters", "statement": "Fitter.fit of a linear model to data with positive weights returns parameters, and does not fail on a singular matrix, if and only if no two different sets of parameters (with the same kept values) give the same results at all data. A PolynomialModel and a ChebyshevPolynomialModel are determined if and only if there are data at more different x than the degree, regardless of which x; a HarmonicModel by data at more different phases than it has parameters, and together with a constant if and only if there are as many different phases as parameters; a BSplinesModel if and only if among the data there are, in ascending order, as many points as parameters, each in the range of its function; a SplinesModel and a BasicSplinesModel if and only if among the data there are, from left to right, as many points as parameters, each beyond the proper inner knot and before the proper one. A sum of a polynomial and a model that has such a polynomial among its curves is never determined. No model is determined by data at fewer different x than it has parameters.", "quantifier": "all linear models, data, weights, kept parameters, degrees, orders, periods and knots", "why_tests_cant": "Whether a matrix is singular depends on the positions of all data together; tests try a few positions.", "anchors": ["BayesicFitting/source/Fitter.py:Fitter.fit", "BayesicFitting/source/BaseFitter.py:BaseFitter.getHessian", "BayesicFitting/source/BaseFitter.py:BaseFitter.getVector", "BayesicFitting/source/PolynomialModel.py:PolynomialModel.basePartial", "BayesicFitting/source/ChebyshevPolynomialModel.py:ChebyshevPolynomialModel.basePartial", "BayesicFitting/source/HarmonicModel.py:HarmonicModel.basePartial", "BayesicFitting/source/BSplinesModel.py:BSplinesModel.basePartial", "BayesicFitting/source/SplinesModel.py:SplinesModel.basePartial"]}
{"id": "C120", "title": "A move of an engine leaves walkers evenly spread over the allowed region", "statement": "When a walker is anywhere with equal probability, in unit space, in the region where the likelihood is at least the current limit, then after one move of an engine it still is. Nested sampling needs this: each new walker must be a fair draw from the prior within the likelihood limit.", "quantifier": "All measurable likelihoods, limits, numbers of parameters, boxes, directions, numbers of trials and measurable test functions of the final place.", "why_tests_cant": "It is a statement about the mean over all random numbers and over all starting places, for every likelihood; a test sees a finite sample of one likelihood and cannot tell a small bias from noise.", "anchors": ["BayesicFitting/source/ChordEngine.py:ChordEngine.execute", "BayesicFitting/source/RandomEngine.py:RandomEngine.execute", "BayesicFitting/source/GibbsEngine.py:GibbsEngine.execute", "BayesicFitting/source/StepEngine.py:StepEngine.execute"]}
{"id": "C121", "title": "The log of the prior volume of nested sampling goes down by its mean over fair draws", "statement": "When NestedSampler has an ensemble of N walkers that are independent draws from the prior, or from the part of it that is left, and no value of the likelihood has a positive prior volume, then after discarding the d worst of them the log of the prior volume has been lowered by exactly the mean, over all ensembles, of the log of the part of the prior that has a higher likelihood than the last one discarded: 1/N + 1/(N-1) + ... + 1/(N-d+1). After any number of iterations the log of the width is the first one plus the sum of these means.", "quantifier": "every prior (any probability measure), every measurable likelihood without plateaus, every ensemble size, every number of discarded walkers below it, and every number of iterations", "why_tests_cant": "the claim is about the mean over all ensembles of a continuous distribution; a test has a finite sample of runs with noise of its own", "anchors": ["BayesicFitting/source/NestedSampler.py:NestedSampler.updateEvidence", "BayesicFitting/source/NestedSampler.py:NestedSampler.sample"]}
{"id": "C122", "title": "Ordering engines keep orders evenly spread over the good ones", "statement": "When walkers are spread evenly over all orders of the items that have at least the lowest allowed likelihood, then one call of an ordering engine (move, reverse, shuffle, switch, loop, near), averaged over its random numbers, leaves them spread evenly over these orders. This is the condition under which the evidence and the samples of NestedSolver are unbiased; the documentation says that mixing the uphill engines with others maintains detailed balance in an overall sense.", "quantifier": "every likelihood of orders, every threshold, every number of items, and all random numbers of the engine", "why_tests_cant": "it is a statement about the distribution over factorially many orders, averaged over all random numbers; a test sees a few moves of a few walkers", "anchors": ["BayesicFitting/source/OrderEngine.py:OrderEngine.execute", "BayesicFitting/source/SwitchEngine.py:SwitchEngine.executeOnce", "BayesicFitting/source/ReverseEngine.py:ReverseEngine.executeOnce", "BayesicFitting/source/MoveEngine.py:MoveEngine.executeOnce", "BayesicFitting/source/ShuffleEngine.py:ShuffleEngine.execute", "BayesicFitting/source/LoopEngine.py:LoopEngine.executeOnce", "BayesicFitting/source/NearEngine.py:NearEngine.executeOnce"]}
{"id": "C123", "title": "The evidence is right within 1/N and the error of the volumes", "statement": "When NestedSampler, discarding one of its N walkers each time, has stored a number of samples, and the true part of the prior with a higher likelihood is for each of them the part that the sampler assumes within a factor exp(d), then the evidence that has been collected is at most exp(d+1/N) times the true one (the integral of the likelihood over the prior), and the true one is at most exp(d) times what has been collected plus the highest likelihood times the volume that is left.", "quantifier": "every prior, every measurable bounded likelihood, every engine, every number of walkers and iterations, every error d", "why_tests_cant": "the true evidence is an integral over a continuous prior that is not known in the cases where one needs the sampler; a test can compare a few known cases with noise", "anchors": ["BayesicFitting/source/NestedSampler.py:NestedSampler.updateEvidence", "BayesicFitting/source/NestedSampler.py:NestedSampler.sample"]}
{"id": "C124", "title": "Fair numbers through the priors have the prior density, so the evidence is the integral of likelihood times prior", "statement": "For every prior of one of the classes uniform, Jeffreys, Laplace, exponential, Cauchy and Gauss, with or without limits or circular, that is proper: a random number that is evenly distributed between 0 and 1 is mapped by unit2Domain to a random number with the density that result() of the prior gives. In particular this density adds up to one, and the chance of a value up to d is domain2Unit( d ). For any number of parameters, each with its own prior, the mean of any function of the parameters (as the likelihood) over the unit box equals the integral over the parameters of the function times the product of the prior densities. This is what makes the first walkers a draw from the prior, and what makes the evidence of nested sampling, which takes place in the unit box, the integral of likelihood times prior.", "quantifier": "All proper priors of these classes, all centers, scales, limits and periods, any number of parameters, all (measurable) functions of them.", "why_tests_cant": "Distributions of random numbers and integrals over all parameter values cannot be observed; a histogram is one sample within its noise.", "anchors": ["BayesicFitting/source/Prior.py:Prior.setLimits", "BayesicFitting/source/Prior.py:Prior.limitedUnit2Domain", "BayesicFitting/source/Prior.py:Prior.circularUnit2Domain", "BayesicFitting/source/UniformPrior.py:UniformPrior.result", "BayesicFitting/source/JeffreysPrior.py:JeffreysPrior.result", "BayesicFitting/source/LaplacePrior.py:LaplacePrior.result", "BayesicFitting/source/CauchyPrior.py:CauchyPrior.result", "BayesicFitting/source/GaussPrior.py:GaussPrior.result", "BayesicFitting/source/StartEngine.py:StartEngine.execute"]}
{"id": "C125", "title": "A weight of n counts as n observations", "statement": "Giving a data point the weight n has the same effect as having that point n times in the data, and weight 0 the same as leaving it out: fitters return the same parameters, chi squared, noise scale, covariance, standard deviations, likelihood and evidence, and the error distributions the same log likelihood, gradient and best noise scale. For weights that are not whole the weight of a point may be distributed over copies of it.", "quantifier": "All data sets, all whole weights (and all splittings of real weights), in any order of the copies; all models, parameters, kept parameters and linear solvers.", "why_tests_cant": "A test compares some data sets with their repetition; the manual promises it for every data set, model, distribution and fitter.", "anchors": ["BayesicFitting/source/BaseFitter.py:BaseFitter.fitprolog", "BayesicFitting/source/BaseFitter.py:BaseFitter.getHessian", "BayesicFitting/source/BaseFitter.py:BaseFitter.getLogLikelihood", "BayesicFitting/source/Fitter.py:Fitter.fit", "BayesicFitting/source/LevenbergMarquardtFitter.py:LevenbergMarquardtFitter.fit", "BayesicFitting/source/QRFitter.py:QRFitter.fit", "BayesicFitting/source/GaussErrorDistribution.py:GaussErrorDistribution.logLdata", "BayesicFitting/source/MixedErrorDistribution.py:MixedErrorDistribution.logLdata", "BayesicFitting/source/CauchyErrorDistribution.py:CauchyErrorDistribution.acceptWeight", "docs/manual.md", "docs/dataquality.md"]}
{"id": "C126", "title": "Weights equal to the inverse squares of the accuracies give the same fit", "statement": "Choosing the weights equal to accuracy^-2 instead of giving the accuracies makes a difference for the evidence only: the fitted parameters, every step of an iterative fit, chi squared, and the parameters with the largest likelihood are the same.", "quantifier": "All data sets with nonzero accuracies, all models, parameters, kept parameters and linear solvers.", "why_tests_cant": "A test compares a few data sets; the manual promises it for all data and models.", "anchors": ["BayesicFitting/source/BaseFitter.py:BaseFitter.fitprolog", "BayesicFitting/source/BaseFitter.py:BaseFitter.getScale", "BayesicFitting/source/Fitter.py:Fitter.fit", "BayesicFitting/source/LevenbergMarquardtFitter.py:LevenbergMarquardtFitter.fit", "BayesicFitting/source/GaussErrorDistribution.py:GaussErrorDistribution.logLdata", "BayesicFitting/source/LaplaceErrorDistribution.py:LaplaceErrorDistribution.logLdata", "docs/manual.md", "docs/dataquality.md"]}
{"id": "C127", "title": "The fitted curve does not depend on the way the model and the data are written", "statement": "When two linear models can make the same curves over the data, with x possibly written in another way for the second one (other units, another origin, another phase), then both fits give the same curve wherever the models agree, the same chi squared, the same noise scale and the same error of the curve from the covariance matrix; they succeed for the same data and use the same number of parameters. This holds in particular for polynomials and Chebyshev polynomials, for polynomials and splines after a linear change of x, for B-splines, basic splines and splines over the same knots, and for harmonic models after a shift of x. Data that lie on a curve of the model give that curve. When y is multiplied by a number, or a curve of the model is added to it, the parameters follow. The evidence does not depend on the units of x, and in other units of y it changes by an amount that is the same for all models.", "quantifier": "All linear models, data sets, weights, accuracies and start parameters, and all changes of x for which the models keep the same curves; for the evidence all limits and noise limits.", "why_tests_cant": "A test compares two bases on a few data sets; users switch bases and units freely and compare the outcomes.", "anchors": ["BayesicFitting/source/Fitter.py:Fitter.fit", "BayesicFitting/source/QRFitter.py:QRFitter.fit", "BayesicFitting/source/CurveFitter.py:CurveFitter.fit", "BayesicFitting/source/PolynomialModel.py:PolynomialModel.basePartial", "BayesicFitting/source/ChebyshevPolynomialModel.py:ChebyshevPolynomialModel.basePartial", "BayesicFitting/source/SplinesModel.py:SplinesModel.basePartial", "BayesicFitting/source/BSplinesModel.py:BSplinesModel.basePartial", "BayesicFitting/source/BasicSplinesModel.py:BasicSplinesModel.basePartial", "BayesicFitting/source/HarmonicModel.py:HarmonicModel.basePartial", "BayesicFitting/source/BaseFitter.py:BaseFitter.getScale", "BayesicFitting/source/BaseFitter.py:BaseFitter.getCovarianceMatrix", "BayesicFitting/source/BaseFitter.py:BaseFitter.getLogZ"]}
{"id": "C128", "title": "Which compound and fixed models are linear, and that the linear fitter is exact for them", "statement": "A compound of linear models made with sums and differences, in whatever brackets, is linear in its parameters: for all parameters its result is an offset plus the inner product of the parameters with the partials it returns, and these do not depend on the parameters. Multiplying by, or dividing by, a model that has no parameters keeps it linear; a product of two models that both have a parameter that matters is never linear. A linear model some parameters of which are fixed, with constants or with models that are linear themselves, is linear in the parameters it is left with; the series PolynomialModel( 1, fixed={1:pm} ) of the manual gives the polynomials of ever higher degree, with the parameters in order of the powers. For all models that are linear in this way the linear fitter finds parameters of which the weighted sum of squares is the smallest there is, whatever parameters the model had before.", "quantifier": "all expressions in linear models, all lists of fixed parameters with constants and linear models, all parameters, all data and weights, any number of levels of the series", "why_tests_cant": "the number of expressions, dictionaries and levels is unbounded, and that a sum of squares is the smallest cannot be seen from examples", "anchors": ["BayesicFitting/source/Model.py:Model.appendModel", "BayesicFitting/source/Model.py:Model.partial", "BayesicFitting/source/FixedModel.py:FixedModel.expand", "BayesicFitting/source/FixedModel.py:FixedModel.partial", "BayesicFitting/source/LinearModel.py:LinearModel.baseResult", "BayesicFitting/source/Fitter.py:Fitter.fit"]}
{"id": "C129", "title": "Samples and walkers do not change after they are stored", "statement": "The numbers in a sample, its parameters, nuisance parameters and hyperparameters, stay those that the walker had when the sample was stored, although sample, walker, phantom and the variables of an engine share arrays: no engine ever writes in an array that was given to a walker, and so a stored likelihood stays the likelihood of the stored parameters. All parameters of a sample together are all parameters of the walker.", "quantifier": "all histories of engine calls, copies of walkers, sorting, removals, storing and weeding of samples; within an engine all outcomes of its conditions, all numbers of turns of its loops and all values that it writes", "why_tests_cant": "A write in a shared array shows only when a particular sequence of rejected and accepted moves meets a stored walker; tests see a few runs and do not compare samples with what they were.", "anchors": ["BayesicFitting/source/Engine.py:Engine.setWalker", "BayesicFitting/source/GibbsEngine.py:GibbsEngine.execute", "BayesicFitting/source/ChordEngine.py:ChordEngine.execute", "BayesicFitting/source/GalileanEngine.py:GalileanEngine.execute", "BayesicFitting/source/Walker.py:Walker.toSample", "BayesicFitting/source/Sample.py:Sample"]}
{"id": "C130", "title": "Parameters of repeated and combined models have the priors set for them", "statement": "In a repeating model every parameter, in each of the components, has the prior that was set for the corresponding parameter of the repeated model, also after the prior is set again; in a dynamic harmonic model all cosines share one prior and all sines another; in a combi model each parameter has the prior of the copy and place it stands for. Asking for one parameter and for all at once gives the same priors, and a model that follows in a chain has its own priors.", "quantifier": "all numbers of components and of parameters, all sets of shared or tied parameters, all lists of priors, all later settings", "why_tests_cant": "A prior of a wrong parameter gives plausible samples; only some positions, for some ties, are wrong, and tests mostly use one component or equal priors.", "anchors": ["BayesicFitting/source/RepeatingModel.py:RepeatingModel.basePrior", "BayesicFitting/source/RepeatingModel.py:RepeatingModel.setPrior", "BayesicFitting/source/CombiModel.py:CombiModel.getPrior", "BayesicFitting/source/HarmonicDynamicModel.py:HarmonicDynamicModel.basePrior", "BayesicFitting/source/Model.py:Model.nextPrior"]}
{"id": "C131", "title": "The fit does not depend on the level of the noise", "statement": "When all accuracies given to a linear fitter are multiplied by one positive number, or one accuracy is given where there was none, the fitter finds the same parameters, the same covariance matrix and the same standard deviations; chi squared is divided by the square of that number and the estimated noise scale by the number itself. With the noise scale (or the limits within which it is searched) divided by that number as well, the evidence is the same. When all weights are multiplied by one positive number the parameters are the same too, but, as weights count data, the covariance matrix changes with the number of degrees of freedom.", "quantifier": "all linear models, all data, all weights and accuracies that are not zero, all positive factors, all limits of parameters and noise", "why_tests_cant": "A test multiplies the errors of one data set by 2; that scale, covariance and evidence compensate each other exactly must hold for all data, models and factors.", "anchors": ["BayesicFitting/source/BaseFitter.py:BaseFitter.fitprolog", "BayesicFitting/source/BaseFitter.py:BaseFitter.getScale", "BayesicFitting/source/BaseFitter.py:BaseFitter.getCovarianceMatrix", "BayesicFitting/source/BaseFitter.py:BaseFitter.getStandardDeviations", "BayesicFitting/source/BaseFitter.py:BaseFitter.getLogZ", "BayesicFitting/source/Fitter.py:Fitter.fit", "BayesicFitting/source/CurveFitter.py:CurveFitter.fit"]}
{"id": "C132", "title": "The tables of a run have one row for each sample", "statement": "The evolutions that a SampleList or WalkerList gives are in the order of the samples: row i of getParameterEvolution holds the parameters of sample i, a column selected by kpar (negative numbers count from the end) or by several numbers holds these parameters of every sample, getScaleEvolution the hyperparameters, the other lists one number per sample. After normalize the weights are positive, sum to 1 and have kept their proportions. getMaximumNumberOfParameters is the largest number of parameters that occurs. For dynamic models the tables are zero-padded.", "quantifier": "every list of samples or walkers of any length, every number of parameters, every selection of columns, static and dynamic models", "why_tests_cant": "A test has one list with one number of parameters; lists of samples with varying numbers of parameters come out of chance.", "anchors": ["BayesicFitting/source/SampleList.py:SampleList.getParameterEvolution", "BayesicFitting/source/SampleList.py:SampleList.getParAndWgtEvolution", "BayesicFitting/source/SampleList.py:SampleList.getMaximumNumberOfParameters", "BayesicFitting/source/SampleList.py:SampleList.getScaleEvolution", "BayesicFitting/source/SampleList.py:SampleList.getWeightEvolution", "BayesicFitting/source/SampleList.py:SampleList.normalize", "BayesicFitting/source/WalkerList.py:WalkerList.allPars", "BayesicFitting/source/WalkerList.py:WalkerList.getParameterEvolution"]}
{"id": "C133", "title": "The derivative to x of repeating and combi models is that of their result", "statement": "For a RepeatingModel with any number of components and any shared parameters, and for a CombiModel with any number of copies, added or multiplied, with any offsets and factors, model.derivative( x, p ) is the derivative to x of model.result( x, p ), whenever that holds for the model that is repeated. A compound model can be repeated too.", "quantifier": "all repeated models, numbers of components, shared or tied parameters, parameter values and x", "why_tests_cant": "The layout of the parameters depends on the number of components and on the list of shared ones; a test has one layout.", "anchors": ["BayesicFitting/source/RepeatingModel.py:RepeatingModel.baseDerivative", "BayesicFitting/source/RepeatingModel.py:RepeatingModel.setSame", "BayesicFitting/source/RepeatingModel.py:RepeatingModel.baseResult", "BayesicFitting/source/CombiModel.py:CombiModel.baseDerivative", "BayesicFitting/source/CombiModel.py:CombiModel.expandParameters", "BayesicFitting/source/Model.py:Brackets.baseDerivative"]}
{"id": "C134", "title": "The most likely parameters: least squares, least absolute deviations, and what that is for a constant", "statement": "With a Gauss error distribution one set of parameters is at least as likely as another if and only if its (weighted) sum of squared residuals is at most as large, at every noise scale, each square divided by the total variance when there are accuracies. When the scale is unknown too, the least squares parameters with the scale of their residuals are the most likely combination. With a Laplace error distribution the same holds for the sum of absolute residuals. For a constant model the most likely value is exactly the weighted mean (Gauss), any weighted median (Laplace, the 'median-like solutions' of the documentation), the middle of the range is possible whenever anything is (Uniform), and the mean of the counts (Poisson). For categorical data it is the fraction of the data that belong to the category of the model. An Exponential error distribution with power 2 is the Gauss one with its scale divided by the square root of 2, and with power 1 it is the Laplace one.", "quantifier": "all models, data sets, weights, accuracies, noise scales and pairs of parameter sets; for constants all data sets", "why_tests_cant": "the comparison is over a continuum of parameters and scales and over data of any number", "anchors": ["BayesicFitting/source/GaussErrorDistribution.py:GaussErrorDistribution.logLdata", "BayesicFitting/source/LaplaceErrorDistribution.py:LaplaceErrorDistribution.logLdata", "BayesicFitting/source/UniformErrorDistribution.py:UniformErrorDistribution.logLdata", "BayesicFitting/source/PoissonErrorDistribution.py:PoissonErrorDistribution.logLdata", "BayesicFitting/source/BernoulliErrorDistribution.py:BernoulliErrorDistribution.logLdata", "BayesicFitting/source/ExponentialErrorDistribution.py:ExponentialErrorDistribution.logLdata"]}
{"id": "C135", "title": "Classification: likelihood, gradient and uniqueness of the best parameters", "statement": "With a Bernoulli error distribution and a model with several outputs, a datum of class c contributes the logarithm of output c, and a datum that is not the number of an output is impossible. The gradient of the log likelihood is its true gradient for every differentiable model whose outputs are positive, so always for a normalised softmax model. For a softmax model the derivative to the connection of an input with a class is the sum of that input over the data, times the difference of what is observed and the probability given by the model. The log likelihood of the softmax model, and of the logistic model with one output, is concave in the parameters: there are no local maxima besides the highest.", "quantifier": "all models with several outputs, all numbers of inputs and classes, all labelled data sets, all parameters and all lists of fitted parameters", "why_tests_cant": "derivatives and concavity are statements about a continuum of parameters, for any number of classes and data", "anchors": ["BayesicFitting/source/BernoulliErrorDistribution.py:BernoulliErrorDistribution.logLdata", "BayesicFitting/source/BernoulliErrorDistribution.py:BernoulliErrorDistribution.nextPartialData", "BayesicFitting/source/ErrorDistribution.py:ErrorDistribution.partialLogL", "BayesicFitting/source/SoftMaxModel.py:SoftMaxModel.basePartial"]}
{"id": "C136", "title": "Levenberg-Marquardt finds the least squares solution of a linear model", "statement": "When the Levenberg-Marquardt fitter is used on a model that is linear in its parameters, without limits on the parameters, with any weights, accuracies, kept parameters and extra measurements (normalize), every trial step is accepted at once and chi squared never rises. If all fitted parameters matter to the data and chi squared is not zero anywhere, the fit converges, in a number of iterations that grows with the logarithm of the starting chi squared over the tolerance. Chi squared of the result is the minimum up to (1/3 + kappa/750) times the tolerance (times chi squared, if that is more than 1), where kappa bounds how much the effects of the parameters on the data cancel; the result is equally close to the least squares solution in what it predicts for the data.", "quantifier": "all linear models, data, weights, kept parameters, extra measurements, starting points, tolerances and numbers of iterations", "why_tests_cant": "a test compares a few fits with the known solution; that the damped half steps converge from everywhere, how fast and how close they come concerns all data and all starting points", "anchors": ["BayesicFitting/source/LevenbergMarquardtFitter.py:LevenbergMarquardtFitter.fit", "BayesicFitting/source/LevenbergMarquardtFitter.py:LevenbergMarquardtFitter.trialfit", "BayesicFitting/source/BaseFitter.py:BaseFitter.getHessian", "BayesicFitting/source/BaseFitter.py:BaseFitter.getVector"]}
{"id": "C137", "title": "Each turn of a robust fit lowers a robust loss", "statement": "Robust fitting without one-sided weights is a minimisation: with every kernel that falls off with the distance (all kernels of the package but Sinc) there is a loss, the sum over the data of the weight times a penalty of the residual in units of scale times domain, where the penalty is the integral of x times the kernel: smaller than half the square for outliers. Each turn of the iteration lowers that loss, in the units of the turn, by at least what it gains in weighted squares; when the scale does not change the loss of the result is not higher than that of the plain fit. With Huber's kernel and a linear model the iteration can only come to rest at the least loss of all.", "quantifier": "all data, nonnegative weights, kernels, domains, inner fitters that return least squares solutions, and numbers of turns", "why_tests_cant": "a test shows that some outliers get little weight; that reweighting descends, whatever the data, model and kernel, and what it converges to, is a statement about all runs", "anchors": ["BayesicFitting/source/RobustShell.py:RobustShell.fit", "BayesicFitting/source/RobustShell.py:RobustShell.getOneSidedWeights", "BayesicFitting/source/kernels/Huber.py:Huber.result"]}
{"id": "C138", "title": "A decision tree splits categories into two sets", "statement": "When a leaf of a decision tree is split on an axis of categories (each category one bit), the categories are divided in two non-empty sets: the points of one set go to the left and those of the other one to the right, and all sets are equally likely. Varying the branch moves one category to the other side, and each division can be reached from each other one by variations. A branch on booleans separates the true ones from the false ones.", "quantifier": "all numbers of categories, random numbers, tables of data and sequences of variations", "why_tests_cant": "a test sees some trees with some random numbers; which sets can be formed, how often, and that none is left out, concerns all random numbers", "anchors": ["BayesicFitting/source/DecisionTreeModel.py:DecisionTreeModel.setSplitOrMask", "BayesicFitting/source/DecisionTreeModel.py:DecisionTreeModel.partitionList", "BayesicFitting/source/DecisionTreeModel.py:DecisionTreeModel.vary", "BayesicFitting/source/DecisionTreeModel.py:DecisionTreeModel.check"]}
{"id": "C139", "title": "A constant factor in the likelihood only shifts the evidence", "statement": "When all likelihoods are multiplied by the same factor, for instance because the data are given in other units or a normalising term is left out, nested sampling with the same random numbers makes the same moves. It takes the same number of iterations and gives the same samples with the same weights and the same information. The log likelihoods and the log evidence are higher by the logarithm of the factor. The engines that only compare likelihoods make the same moves for any other increasing measure of likelihood.", "quantifier": "all factors, options, starting walkers, sequences of random numbers and numbers of iterations; for each engine all walkers, phantoms, levels and all strictly increasing functions of the likelihood", "why_tests_cant": "Tests run one likelihood; that runs with scaled likelihoods are identical is a relation between pairs of runs of any length.", "anchors": ["BayesicFitting/source/NestedSampler.py:NestedSampler.sample", "BayesicFitting/source/NestedSampler.py:NestedSampler.updateEvidence", "BayesicFitting/source/SampleList.py:SampleList.normalize", "BayesicFitting/source/Explorer.py:Explorer.explore", "BayesicFitting/source/GibbsEngine.py:GibbsEngine.execute", "BayesicFitting/source/StepEngine.py:StepEngine.execute", "BayesicFitting/source/ChordEngine.py:ChordEngine.execute", "BayesicFitting/source/GalileanEngine.py:GalileanEngine.execute", "BayesicFitting/source/RandomEngine.py:RandomEngine.execute", "BayesicFitting/source/BirthEngine.py:BirthEngine.execute", "BayesicFitting/source/DeathEngine.py:DeathEngine.execute", "BayesicFitting/source/StructureEngine.py:StructureEngine.execute"]}
{"id": "C140", "title": "A walker is explored until enough moves are made", "statement": "The engines of an iteration work in rounds, each engine once per round. The rounds go on until the walker has made as many moves as it has parameters, divided by the rate, or until the maximum number of trials divided by the rate is reached, and they stop then. The exploration always ends; it never gives a walker below the level. A lower rate explores at least as long. An engine that is slow by k takes part in exactly one of any k iterations in a row, the other engines take part in all, in the given order. Every iteration has at least one engine.", "quantifier": "all engines and orders in which they are called, all rates, levels, numbers of parameters and trials, all lists of engines with and without a slow attribute and all iterations", "why_tests_cant": "The number of rounds depends on the random moves of the engines; tests see a few runs with fixed engines.", "anchors": ["BayesicFitting/source/Explorer.py:Explorer.exploreWalker", "BayesicFitting/source/Explorer.py:Explorer.selEngines", "BayesicFitting/source/Explorer.py:Explorer.allEngines", "BayesicFitting/source/Explorer.py:Explorer.__init__"]}
{"id": "C141", "title": "Nice numbers and rounding to integers", "statement": "The nice number of a number has one digit, or is ten, times a power of ten. It has the same sign, it is not larger in size and it is more than half of it. It exists for all numbers. An array of integers in floating point that are a little off, less than a millionth, is rounded to those integers.", "quantifier": "all numbers, of any size and sign", "why_tests_cant": "The loops run until the number has one digit: the number of turns depends on the size of the number.", "anchors": ["BayesicFitting/source/Tools.py:nicenumber", "BayesicFitting/source/Tools.py:fix2int"]}
{"id": "C142", "title": "How many moves an engine makes", "statement": "Executing an engine on a walker reports a number of moves that is the number of fitted parameters times the number of steps that succeeded, and never more steps than the engine was asked to do: the random engine reports none or one per parameter, the Gibbs engine at most one per parameter and step with at least one step, the step, chord and galilean engines a whole number of joint moves of all parameters, no more than their steps. When no likelihood lies below the level, the random, Gibbs, step and galilean engines do all their steps. The start engine only gives up after more draws than its maximum number of trials plus the identity of the walker, all of them with a likelihood that was not finite.", "quantifier": "every walker list, phantom list, problem, likelihood, level, random sequence, number of steps, number of trials and fit index", "why_tests_cant": "The report counts accepted trials inside nested loops that are driven by random numbers and likelihoods; a test sees one sequence and one level.", "anchors": ["BayesicFitting/source/RandomEngine.py:RandomEngine.execute", "BayesicFitting/source/GibbsEngine.py:GibbsEngine.execute", "BayesicFitting/source/StepEngine.py:StepEngine.execute", "BayesicFitting/source/ChordEngine.py:ChordEngine.execute", "BayesicFitting/source/GalileanEngine.py:GalileanEngine.execute", "BayesicFitting/source/StartEngine.py:StartEngine.execute"]}
{"id": "C143", "title": "More data, more terms and more kept parameters", "statement": "When data are added to a least squares fit of a linear model, or when more parameters are kept at values given before, chi squared at the optimum does not get lower. When another linear model is added to the model, chi squared does not get higher. In units of the noise scale the variance of every linear combination of the parameters, according to the covariance matrix, does not get higher when data are added or more parameters are kept.", "quantifier": "all linear models, data, weights, accuracies, added data, added models and lists of kept parameters, and all combinations of the parameters", "why_tests_cant": "It compares two fits, for all data and models; it fails only for some of them when weights, kept parameters or indices are mixed up.", "anchors": ["BayesicFitting/source/Fitter.py:Fitter.fit", "BayesicFitting/source/BaseFitter.py:BaseFitter.getCovarianceMatrix", "BayesicFitting/source/BaseFitter.py:BaseFitter.getHessian", "BayesicFitting/source/BaseFitter.py:BaseFitter.chiSquared", "BayesicFitting/source/BaseFitter.py:BaseFitter.keepFixed"]}
{"id": "C144", "title": "Each parameter goes to unit space and back by its own prior", "statement": "When an engine maps parameters to unit space, or back, with or without a selection of parameters, each value is mapped by the prior of its own parameter or hyperparameter; parameters for the x values are mapped relative to their own measured x. Mapping to unit space and back gives the same values, when the priors do so. The box in unit space that engines draw their steps from contains all phantoms above the level; its lower side plus its range is its upper side, and without phantoms it is all of unit space.", "quantifier": "all compound models, priors, numbers of hyperparameters, selections of parameters and histories of stored phantoms and requests", "why_tests_cant": "The maps are found by index, positive for parameters and negative for hyperparameters: a mistake shows only for some combinations of models, hyperparameters and selections.", "anchors": ["BayesicFitting/source/Engine.py:Engine.domain2Unit", "BayesicFitting/source/Engine.py:Engine.unit2Domain", "BayesicFitting/source/Engine.py:Engine.makeIndex", "BayesicFitting/source/Engine.py:Engine.getUnitMinmax", "BayesicFitting/source/Engine.py:Engine.getUnitRange", "BayesicFitting/source/ErrorDistribution.py:ErrorDistribution.domain2Unit", "BayesicFitting/source/ErrorDistribution.py:ErrorDistribution.unit2Domain", "BayesicFitting/source/HyperParameter.py:HyperParameter.domain2Unit", "BayesicFitting/source/Problem.py:Problem.domain2Unit", "BayesicFitting/source/ErrorsInXandYProblem.py:ErrorsInXandYProblem.domain2Unit"]}
{"id": "C145", "title": "The noise scale is an average of the residuals", "statement": "For residuals at given parameters the scale with a Gaussian or a Poisson distribution is the root of the weighted average square, the one with a Laplace distribution the weighted average absolute value, the one with a uniform or Bernoulli distribution the largest absolute value. They do not depend on the scale that is among the parameters. The Laplace scale is never larger than the Gaussian scale, which is never larger than the uniform scale, and none is smaller than the smallest absolute residual. A scale is zero only for a perfect fit, and changes with the units of the data.", "quantifier": "all data sets, weights that are not negative, models, parameters and units", "why_tests_cant": "inequalities between averages over any number of data", "anchors": ["BayesicFitting/source/ErrorDistribution.py:ErrorDistribution.getGaussianScale", "BayesicFitting/source/ErrorDistribution.py:ErrorDistribution.getResiduals", "BayesicFitting/source/PoissonErrorDistribution.py:PoissonErrorDistribution.getScale", "BayesicFitting/source/LaplaceErrorDistribution.py:LaplaceErrorDistribution.getScale", "BayesicFitting/source/UniformErrorDistribution.py:UniformErrorDistribution.getScale", "BayesicFitting/source/BernoulliErrorDistribution.py:BernoulliErrorDistribution.getScale"]}
{"id": "C146", "title": "A second place is always another one, and all others are equally probable", "statement": "The engines that move or switch parts of an order draw a second place until it differs from the first. The place they go on with is another one; every other place is possible, all with the same chance; the drawing stops at the first that differs and the chance that it has not stopped after n draws is one in np to the power n.", "quantifier": "all orders, first places, sequences of random numbers of any length", "why_tests_cant": "a loop without a bound on random numbers, and equal chances over all sequences", "anchors": ["BayesicFitting/source/MoveEngine.py:MoveEngine.executeOnce", "BayesicFitting/source/SwitchEngine.py:SwitchEngine.executeOnce"]}
{"id": "C147", "title": "A mixture of error distributions is a weighted sum of likelihoods", "statement": "With a mixed error distribution the likelihood of each datum is the fraction times the likelihood of the first distribution plus the rest times that of the second, each with its own hyperparameters, at every fraction from 0 to 1; it is between the two. The distributions may be exchanged together with the fraction; a mixture of a distribution with itself is that distribution. The log likelihood is concave in the fraction, so that a fraction that is best in its neighbourhood is best of all.", "quantifier": "all pairs of distributions, data, models, parameters and fractions", "why_tests_cant": "identities and inequalities over a continuum of fractions and any number of data", "anchors": ["BayesicFitting/source/MixedErrorDistribution.py:MixedErrorDistribution.logLdata"]}
{"id": "C148", "title": "Copies from the phantoms are fair", "statement": "When a dead walker is replaced by a copy of a phantom, the phantom is above the likelihood level; all phantoms above the level have the same chance, the others none. When the phantoms are in groups by their number of parameters, each number that can be drawn stands for another phantom.", "quantifier": "all lists of phantoms, levels and sequences of random numbers of any length", "why_tests_cant": "equal chances over all sequences of draws of any length, in a loop without a bound", "anchors": ["BayesicFitting/source/NestedSampler.py:NestedSampler.copyWalkerFromPhantoms", "BayesicFitting/source/NestedSampler.py:NestedSampler.copyWalkerFromDynamicPhantoms"]}
{"id": "C149", "title": "The numeric slopes of a prior are its slopes", "statement": "At every point between the limits of a prior, the numeric derivative of the map from domain to unit (what result falls back on) and the numeric slope of the log of the density (numPartialLog, what partialLog falls back on) are finite and close to the exact density and slope. They are exact for uniform and Gauss priors and for a Laplace prior away from its center, and they tend to the exact values for all priors as deltaP gets small. Outside the limits the slope is nan.", "quantifier": "All kinds of prior as constructed, all legal limits, centers and scales, all points between the limits, all positive steps deltaP.", "why_tests_cant": "Tests compare the two at a few points well inside the limits. Whether the step stays between the limits depends on the point, the limits and deltaP together.", "anchors": ["BayesicFitting/source/Prior.py:Prior.numPartialDomain2Unit", "BayesicFitting/source/Prior.py:Prior.numPartialLog", "BayesicFitting/source/Prior.py:Prior.partialLog"]}
{"id": "C150", "title": "The attributes of walkers, samples and error distributions keep their types", "statement": "Whatever is assigned to the attributes of a Walker, a Sample or an error distribution, in any order and with any exceptions caught, the object only has the attributes of its class and each holds a value of its declared type: whole numbers for id, parent and start, numbers for the log likelihoods and weights, arrays for lists of numbers. A refused assignment changes nothing. The log likelihood that an error distribution uses is the constrained one exactly when a constraint is set, and the constraint can be called.", "quantifier": "All sequences of assignments, of all names and all values (scalars, lists and arrays of any type and length), to all four classes.", "why_tests_cant": "Tests assign a few right and a few wrong values once. That the likelihood in use follows the constraint must hold after every history of assignments, also when some of them raise.", "anchors": ["BayesicFitting/source/Tools.py:setNoneAttributes", "BayesicFitting/source/Tools.py:setListOfAttributes", "BayesicFitting/source/Tools.py:setSingleAttributes", "BayesicFitting/source/Walker.py:Walker.__setattr__", "BayesicFitting/source/Sample.py:Sample.__setattr__", "BayesicFitting/source/ErrorDistribution.py:ErrorDistribution.__setattr__", "BayesicFitting/source/MixedErrorDistribution.py:MixedErrorDistribution.__setattr__"]}
{"id": "C151", "title": "Linear and non-linear parameters of a mixed model are told apart", "statement": "After setMixedModel every parameter of a non-linear model is either one of the linear ones that were set last, or reported by getNonLinearIndex, never both; isMixed says whether there are linear ones. None resets it. A copy has the same linear parameters and is set independently.", "quantifier": "All sequences of calls of setMixedModel with any lists of indices, all numbers of parameters, copies made at any time.", "why_tests_cant": "Tests set one list on one model. Resetting, copying and indices that count from the end come in any combination.", "anchors": ["BayesicFitting/source/NonLinearModel.py:NonLinearModel.setMixedModel", "BayesicFitting/source/NonLinearModel.py:NonLinearModel.isMixed", "BayesicFitting/source/NonLinearModel.py:NonLinearModel.getNonLinearIndex"]}
