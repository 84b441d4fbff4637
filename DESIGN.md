# Formal model of BayesicFitting: design

Source: `/repo/BayesicFitting/source` (python), read as text only.
Model and proofs: `/verif/lean` (Lean 4.33.0, Mathlib), built with `lake build`.

## Layout

* `Verif/<Area>.lean` holds the model. Every definition cites the file and lines it models.
* `Verif/Props/<Area>.lean` holds the property theorems (`C01_...`), the small specification
  definitions they are phrased in, and `example`s showing that the hypotheses are met.
* A theorem with suffix `_partial` proves part of a property. One with `counterexample` in its name proves
  that the code, as modelled, does something else than the property says; these are found back under
  "Disagreements".
* `MANIFEST.json` maps properties to theorems, `seeded/LOG.jsonl` records mutation tests: wrong programs
  made from the model, with the theorems that fail for them.

## Conventions of the model

* Python floats are modelled as real numbers (`ℝ`), in some places as elements of any ordered field.
  Rounding, overflow, NaN and infinities are not modelled. Where the code uses infinities (log likelihood
  of minus infinity, open limits) the model uses `Option`, `WithBot` or an explicit case.
* numpy arrays are modelled as lists, or as functions on `Fin n` or `ℕ`. Elementwise numpy expressions
  are modelled for one element (one data point) and lifted with `map`/`sum`.
* Random generators are modelled as arguments: each theorem quantifies over every value that the
  generator could deliver.
* Exceptions are values (`Option`/`Except`).
* Loops without an a priori bound get a `fuel`; theorems hold for all fuels, or say that some fuel
  suffices.
* Where sharing of objects matters (chains of models, copies, views on arrays) the model has a memory:
  addresses and a store.
* numpy/scipy routines enter through their defining equation, as a parameter with a hypothesis.

## Plan per property

| id | property | what is modelled | how it is proved | status |
|----|----|----|----|----|
| C01 | Ordering moves only ever produce permutations | each ordering move as a list function of the drawn cut points | `List.Perm` lemmas on take/drop/rotate/reverse, induction over move sequences | proved |
| C02 | The length of a closed tour depends only on the cyclic order | legs of a tour as in SalesmanProblem | sums over cyclic lists, induction | proved |
| C03 | A sorted walker ensemble stays sorted under insertion, and cropping is exactly filtering | insertWalker, firstIndex, cropOnLow on lists | induction over sorted lists and over histories of operations | proved |
| C04 | Evidence bookkeeping of nested sampling is exact | updateEvidence and the sampling loop, log arithmetic over the reals | loop invariant | proved |
| C05 | Evidence is bounded by the highest likelihood seen | same loop | convexity from the volume invariant | proved |
| C06 | Posterior sample weights are a probability distribution | SampleList.normalize, average | sums of exponentials | proved |
| C07 | The likelihood floor of nested sampling only rises and every walker stays above it | main loop with an adversarial explorer | loop invariant | proved |
| C08 | A nested sampling run stops | nextIteration, getMaxIter | decreasing measure | proved |
| C09 | Engines never leave a walker below the likelihood constraint | every engine as a function of its draws | case analysis, induction over the trial loops | partial |
| C10 | Galilean reflection conserves speed and is its own inverse | mirrorOnLowL, trialStep over vectors | linear algebra over lists | proved |
| C11 | Interpolation finds the point where the likelihood crosses the level | quadinterpol | real algebra | proved |
| C12 | Chord steps stay within the unit box | chord limits, trial points, shrinking | real algebra, induction over rejections | partial |
| C13 | Prior maps between unit range and parameter domain are inverse and monotone | each prior as a pair of real maps, with the limited and circular wrappers | real analysis | proved |
| C14 | A prior with limits only yields values within its limits | setLimits and the limited maps | monotonicity | partial |
| C15 | The prior density is the derivative of the prior cumulative | density and distribution of each prior | HasDerivAt | partial |
| C16 | A circular prior treats its domain as a circle | circular priors | periodicity, intervals | partial |
| C17 | A compound model evaluates its components left to right, each on its own slice of the parameters | chain of models as an inductive type, evaluation with offsets | structural induction | proved |
| C18 | Parameter derivatives of a compound model are the true derivatives | partial of a chain, assembled column by column | structural induction with HasDerivAt rules | partial |
| C19 | The x derivative of a compound model is the true derivative | derivative of a chain | structural induction with HasDerivAt rules | partial |
| C20 | Parameter wise questions to a compound model go to the right component | parameter-wise attributes of a chain | induction over the chain | proved |
| C21 | Combining models leaves the operands usable as before | models as objects in memory with links | invariant of the store, frame argument | proved |
| C22 | Fixing parameters is substitution | FixedModel: select, expand | list induction | proved |
| C23 | Growing and shrinking a dynamic model keeps the other parameters | grow, shrink of dynamic models | list algebra, induction over histories | proved |
| C24 | The list of fitted parameters follows a birth or death | alterFitindex | list algebra | partial |
| C25 | A repeated model is a sum, independent of the order of its components | RepeatingModel | list algebra, sums | proved |
| C26 | A combined model ties parameters together | CombiModel | list algebra, HasDerivAt | partial |
| C27 | Log likelihood gradients are true gradients | error distributions | HasDerivAt of finite sums | partial |
| C28 | Log likelihood is additive over the data | logLdata, logLikelihood_alt | sums over lists | partial |
| C29 | Each likelihood is a normalised probability density of the datum | logLdata of one datum | integrals and series from Mathlib | proved |
| C30 | The linear fitter returns the global minimum of chi squared | normal equations, normalize | quadratic form argument | proved |
| C31 | The QR fitter minimises the same chi squared as the linear fitter | QR fitter | linear algebra; counterexample | partial |
| C32 | Levenberg-Marquardt never accepts a worse chi squared, respects limits and stops | trial loop of Levenberg-Marquardt with arbitrary steps | loop invariant | proved |
| C33 | Keeping parameters fixed in a fit touches only the others | keep, fixed parameters | list bookkeeping | partial |
| C34 | The simple models return their true derivatives | formulas of the simple models | HasDerivAt | partial |
| C35 | Polynomial models are the polynomials they claim to be | polynomial, Chebyshev and surface models | induction on the degree | proved |
| C36 | Spline models are piecewise polynomials in the advertised space | splines | HasDerivAt, continuity at the knots | partial |
| C37 | Kernels have the derivative, support and integral they advertise | kernels | integrals, HasDerivAt | proved |
| C38 | Image indices enumerate every pixel exactly once | indices of image pixels | Nat.div/mod induction | partial |
| C39 | The orthonormal basis is orthonormal | Gram-Schmidt step | inner products, induction | proved |
| C40 | Residuals of a periodic quantity are folded to the nearest equivalent | cyclic residuals | real case analysis | proved |
| C41 | The bounding box of the phantoms holds every phantom | phantom collection with cached extremes | induction over histories | partial |
| C42 | The list of fitted parameters holds each free one exactly once | makeFitlist | list lemmas | partial |
| C43 | Robust fitting stops and only down-weights | RobustShell loop | loop invariant | proved |
| C44 | Log factorial agrees with the factorial for small arguments | table and series of logFactorial | kernel computation for the table, bounds on the Stirling series | partial |
| C45 | A copy of a prior or a model behaves as the original and is independent of it | copies of priors and models | equality of observable maps | partial |
| C46 | A product model is a product of one dimensional models | ProductModel | HasDerivAt by induction | proved |
| C47 | An ordering engine changes only the walker it was asked to explore | order engines in the walker list | case analysis; counterexample | partial |
| C48 | The loop engine recognises crossing stretches | loop engine | case analysis; counterexample | partial |
| C49 | The prior volumes tile the prior | evidence with discard > 1 | loop invariant; counterexample | partial |
| C50 | The information is the posterior average of log likelihood minus log evidence | information with stale level | loop invariant; counterexample | partial |
| C51 | A call of sample() yields the posterior of that call | second call of sample | runs of the loop; counterexample | partial |
| C52 | Samples are stored in ascending order of likelihood | final update of the evidence | runs of the loop; counterexample | partial |
| C53 | Weeding keeps a contiguous stretch of the required size | SampleList.weed | list induction | partial |
| C54 | Kernels fall off and are one half at their advertised width | full width at half maximum of kernels | real analysis | proved |
| C55 | The result of a kernel in terms of the square is the result | resultsq of kernels | real algebra; counterexamples | partial |
| C56 | Engines keep the parameters in the range of the prior | engines with parameters kept in the unit box | invariant of the trial loops | partial |
| C57 | The near engine puts a city next to its nearest neighbour | nearest neighbours of cities | list induction | proved |
| C58 | Questions about all parameters of a compound model agree with those about each of them | questions about all parameters of a chain | induction over the chain; counterexamples | partial |
| C59 | A decision tree sends each point to exactly one leaf | decision tree: result and partial | induction over the tree | partial |
| C60 | A decision tree gives a point the same value in every table | splits of a decision tree | induction over the tree | partial |
| C61 | Growing, shrinking and varying a decision tree keep parameters and leaves together | grow, shrink and vary of a decision tree | induction over the tree and over histories | partial |
| C62 | Copies and codes of a decision tree are the same tree | encode, decode and copy of a decision tree | round trip by induction | partial |
| C63 | The simplex minimiser reports the best value it has seen | simplex minimiser over any ordered field | invariant of the loop; runs computed by the kernel as counterexamples | partial |
| C64 | The simplex minimiser respects limits | limits in the simplex minimiser | invariant of the loop | partial |
| C65 | The simplex minimiser ends | stopping of the simplex minimiser | measure on iterations; counterexamples | partial |
| C66 | Errors in x and y: the gradient of the log likelihood is the true gradient | errors in x and y: problem and two dimensional Gauss distribution | HasDerivAt of finite sums, inverse of a 2 by 2 matrix | proved |
| C67 | Errors in x and y: variances are the squares of the accuracies, also after copying | array of accuracies in memory, views, in place operators, copies | induction over histories of copies | partial |
| C68 | Errors in x and y: the likelihood is a normalised density in the plane | likelihood of one point in the plane | Gaussian integrals | partial |
| C69 | Errors in x and y: unit interval and domain correspond for parameters and targets | unit2Domain, domain2Unit | inverse functions | proved |
| C70 | Multiple outputs: residuals, weights and partials belong together | flattened arrays of a problem with several outputs | indices of flattened lists, HasDerivAt | partial |
| C71 | Evidence of a linear fit is the average likelihood | the state after a linear fit, log likelihood, Occam factor, ranges | completing the square, Gaussian integral over K dimensions through the spectral theorem | partial |
| C72 | Evidence with an unknown noise scale | the same with limits on the noise scale | the Gamma integral over the scale; counterexamples for the remaining factor | partial |
| C73 | Covariance, standard deviations and scale are right on average | covariance matrix, standard deviations, scale | errors linear in the noise, expectation of quadratic forms, trace of the identity | partial |
| C74 | Questions after a fit do not influence each other | the state with its hessian attribute, questions as operations | invariant over sequences of questions | partial |
| C75 | Basic splines are splines and their derivative is right | the equations per basis function, the pieces, the loops over the knots | the equations say that neighbouring pieces agree in their derivatives, so that the pieces are a polynomial plus truncated powers | proved |
| C76 | Basic splines add up to one and span the same functions as SplinesModel | the normalisation in sample points | a dimension count for the sum; a bilinear form on polynomials, constant in the point where it is taken, for the influence of each parameter | proved |
| C77 | Softmax outputs are probabilities; its partials and derivative are exact | raster of connections, transfer function, softmax | product rule through the pipeline; the sum of the quotients | partial |
| C78 | Surface splines are all products of splines, and are named accordingly | loop over the dimensions | induction over the dimensions: the place of a combination in the list | partial |
| C79 | Free shapes: a pixel is a shifted shape, constants are fitted exactly | shifted kernels | accumulated shift by induction; the sum of shifted tophats over a window | partial |
| C80 | B-splines are non-negative, local, add up to one, and their derivative is exact | the recursion of Cox and de Boor, collocation, derivative | induction over the order for support, sum, ends and derivative; continuity of the functions of order 1 | partial |
| C81 | B-splines and splines models describe the same functions, with unique parameters | the same | identity of Marsden for powers and truncated powers, then a dimension count | proved |
| C82 | The best noise scale has the largest likelihood | residuals, sums of weights, the scales; bisection as a parameter | log x <= x-1 gives the unique optimum; counterexamples with one or two data | partial |
| C83 | The sigma of a noise scale is the standard deviation | the conversion of scale to sigma | second moments by the integrals of Gamma; divergence for Cauchy | partial |
| C84 | Maximum likelihood fitters minimise what they say, with its true gradient | the landscapes for chi-squared and for each error distribution, insertion of fitted parameters | derivatives of sums, reduced to the gradients of C13 | partial |
| C85 | Scale and likelihood after a maximum likelihood fit | the landscape after the fit | equality of the sums over the landscape and over the problem; the optimum of C82 | partial |
| C86 | A scipy fit respects limits and kept parameters | the fit with the minimiser as a parameter | from the documentation of the minimiser | partial |
| C87 | Orbits follow Kepler's laws | the iterations of the solver on all data, ellipse, areas, period | mean value inequalities for the residual; derivative of the implicit function | partial |
| C88 | Radial velocities are the velocity along the line of sight, with true derivatives | velocity, its partials and derivative with the solution of Kepler's equation as parameter | total differential along a path | partial |
| C89 | Stellar orbits: projection on the sky, coordinates and derivatives | projection, both coordinate systems, partials and derivatives | total differential along a path; logarithm of a complex number for the angle | partial |
| C90 | Kernels in two dimensions: distance, shapes and derivatives | the two-dimensional kernel models with the kernels of C37 as they are | total differential of a radial function | partial |
| C91 | Growing and shrinking polynomials and harmonics stay what they are | dynamic polynomials and harmonics as states of the dynamic model of C23 | induction over the history (C23), sums | partial |
| C92 | Births and deaths follow the grow prior | the decision to grow or shrink as a function of the random number; the grow priors of C14 | measure of the set of random numbers | partial |
| C93 | A curve fit minimises chi squared, respects limits and kept parameters | the call of curve_fit: function, jacobian, data, sigma, bounds, and the state of the fitter; curve_fit is a parameter | the sum of squares handed over is chi squared; the jacobian is its derivative | partial |
| C94 | The phantom sampler keeps its ensemble above a rising floor and loses no walkers | the phantom sampler: worst, updateWalkers and the inherited loop with appending engines (contract `Appends`) | invariants of the two while loops (fill, trim) and of an iteration; runs by induction | partial |
| C95 | Hyperparameters with limits are fitted, others have their given value; copies are independent | constructors, setLimits, keepFixed and copies of error distributions over a store of hyperparameters | evaluation for all values; composed with makeFitlist of C42 | partial |
| C96 | The likelihood that ModelDistribution gives to a model is its log evidence | `ModelDistribution.logLikelihood_alt`: which fitter is made with what, the fit, the evidence, what is stored in the walker, which exceptions are caught; the linear fitter and its evidence are those of C30 and C71; the nested sampler is a parameter | value by C71 and C72, a regular solver gives a regular Hessian; weights: two points, the integrals compared through a bound on the density; nested: the 10log by `exp` | partial |
| C97 | The first walkers of a dynamic model are drawn from the priors | StartEngine.execute with its loops of growing and of trials; the random numbers as a sequence | induction over both loops with the renumbering of C24; the number of components under the product measure of independent uniform draws | partial |
| C98 | No random number is used twice in a run | the samplers of C04 and C94 as they are | induction over the loops with a function that counts the draws | proved |
| C99 | The football model: partials, defaults, home advantage, priors | the formulas of FootballModel.py, rows of partials as lists of assignments, the search of a prior along the chain | total derivative along a path of one parameter, then field algebra; case split over the complexities | partial |
| C100 | The nested solver returns a tour through all cities and the best one it has | NestedSolver.py: the sampler of Nested with the engines of Orders on the problem of Salesman, from the first walkers to the returned sample | invariant (size, ids, tours, level) through engine, exploration, copy, iteration and run; the failures on concrete runs or for all generators | partial |
| C101 | Splines with a variable set of knots stay a spline | SplinesDynamicModel.py: constructor, copy, grow, shrink, vary and varyAlt on the knots, sizes, basis and parameters of the chain | exact resulting state per operation, then an invariant over histories of operations; success for explicit draws; the failures as counterexamples | partial |
| C102 | Monte Carlo error bars are the spread that the covariance matrix implies | MonteCarlo.py and BaseFitter.monteCarloError: the decomposition as a parameter, the variants, the two sums, the global generator | refinement to the standard deviation over the cycles; the mean of its square by integration over uncorrelated random numbers, with independent standard normal ones as the instance | partial |
| C103 | Numeric derivatives are close to the true ones | FixedModel.result/partial/numPartial/basePartial/numDerivative with the in-place checks of BaseModel, strictNumericPartial, numPartialLogL, UserModel, AstropyModel | the loops are reduced to symmetric differences by induction over the list of parameters; the error by integrating the bound on the third derivative; the failures as counterexamples for all values | partial |
| C104 | Calling sample again on the same NestedSampler | the state with which a call of `sample` starts, given the sampler as the call before left it | the evidence is the weight of what was added since the start of the call (invariant of the loop); the effect of normalising on the old and new part; induction over the calls | partial |
| C105 | Problem, error distribution and engines of a sampler belong together | the constructor, setProblem, setErrorDistribution, setEngines, setInitialEngine and initSample as operations on a sampler of which shared objects are numbers; the cached attributes of Problem | decision logic against two tables of names; the invariant that all engines refer to the distribution and phantoms of the sampler, by induction over operations | partial |
| C106 | Chains of models with several inputs and outputs | models with any number of inputs and outputs on arrays with the shapes and broadcasting of numpy; appendModel, the three recursions over a chain, selectPipe and pipe_0 ... pipe_9 | induction over the chain with the function so far as invariant; matrix products for the pipes, curves for the chain rule; the failing combinations as universal statements | partial |
| C107 | Summaries of the posterior samples | the dictionary of a SampleList and its __getattr__; averstd with the in-place addition of numpy; median, modus, averages of the model and their errors; Tools.average; Walker.toSample; the end of NestedSampler.sample | invariant over any sequence of reads: what is in the dictionary is what would be calculated; sums over lists; the direction of the resultant as maximum of the sum of cosines | partial |
| C108 | Exploring several walkers in threads gives a valid ensemble for every schedule | the threads of Explorer.explore as programs of accesses to what they share (walkers, phantoms, the generator of the engines); exploreWalker, Engine.setWalker, storeItems; the list of errors; the counters when threads are joined | invariant over every schedule of accesses, at every moment; without threads by induction over the program; lost updates as schedules | partial |
| C109 | Copies from the phantoms are above the level, and a boost never makes a walker worse | copyWalkerFromPhantoms, copyWalkerFromDynamicPhantoms with the search for the group; the option bestBoost on its way to the engines; Engine.doBoost with the fitter and the likelihood as parameters | induction over the walkers to be replaced and over the draws; for the end a fair stream of numbers; decision logic | proved |
| C110 | The units that a model gives for its parameters fit its formula | baseParameterUnit of the models, getParameterUnit of a chain, getIntegralUnit, over any commutative group of units | a change of units is a homomorphism from the units to positive numbers with the radian sent to 1; that the formula commutes with it by algebra, for lists and chains by induction; for the integral by substitution | partial |
| C111 | A fit within limits | BaseFitter.limitsFit over any fit method: the loop over the parameters, the dictionary of fixed ones, the second fit | invariant of the loop over the parameters; minimality from what is asked of fit, which C30 gives for the linear fitter; the box by convexity on the segment between the two minima | partial |
| C112 | Both ways of calculating the gradient of the log likelihood agree | partialLogL_alt of seven error distributions: the loop that stores the elements, the sums | induction over the list of fitted parameters for the places of the elements; the sums by algebra | partial |
| C113 | Every parameter has a name that tells which one it is | getParameterName over a chain, the names after fixing parameters, the names that combi, repeating, dynamic and other models make, reading an attribute by name | induction over chain, dictionary and history; the places are those of C22 and C26; decimal numbers are decoded to show that names differ | partial |
| C114 | A copy of a model has everything the model has, and what is done to one does not change the other | constructors and copy of 39 classes of models, of repeating and of combined models; lists of priors in memory | an invariant of all histories of a model, from which the copy is computed class by class; refinement of the memory of priors to values | partial |
| C115 | A model treats a parameter with a forbidden sign or value as the nearest allowed one | the checks of BaseModel on arrays shared through views, in chains and in models with models as fixed parameters; correctParameters; partial | pointwise characterisation of the loops over indices; a property of models kept by chains and fixed models, by induction over the nesting; the derivative by the chain rule through |t| | partial |
| C116 | Attributes of models keep their types | setAttribute, isList, isInstance, and the tables of attributes of 21 classes of models; FootballModel.complexity, ConstantModel.value/table | characterisation of what is accepted for all values; an invariant of all histories of assignments | partial |
| C117 | Knots made for a set of sites allow interpolation at these sites | splinelab aveknt, aptknt, knt2mlt, spcol and Bspline.diff of all orders, on the model of Bspline of C102 | average bounds for the condition of Schoenberg and Whitney; positivity of the Cox-de Boor recursion inside the support; induction over the order of differentiation for the terms of diff; induction over the list with a prefix for the multiplicities; theorem of Schoenberg and Whitney by counting sign changes of derivatives over the order, local independence, and finite dimension for existence | partial |
| C118 | The history of the samples tells where they come from | Engine.setWalker on the identity of a walker, histinsert, getGeneration/ParentEvolution/StartEvolution and the points in a frame of SampleMovie, on top of the nested sampler of C07 | invariants over the iterations of a run: ids are a permutation, serial numbers ascend, the number of samples alive is conserved; rank by counting in a sorted ensemble; counterexamples for parents, starts with other engines and more discarded walkers | partial |
| C119 | A linear fit succeeds precisely when the data determine the parameters | the linear models of C34, C35, C36 and C80 as given to Fitter.fit of C30; numpy.linalg.solve succeeds exactly for matrices that are not singular | the quadratic form of the Hessian matrix is a sum of squares; polynomials have no more roots than their degree, also in the complex plane for the harmonics; a dimension count and the theorem of Schoenberg and Whitney, from the zeros of splines of C117 | proved |
| C120 | A move of an engine leaves walkers evenly spread over the allowed region | The moves of the chord, random, Gibbs and step engine with the random numbers integrated out: each returns the mean of a test function at the final place. | Reversibility of the shrinking chord by induction over the trials with Tonelli; lines by translation invariance; the redraw loops by a geometric series; explicit bounds near the edge for the counterexamples. | partial |
| C121 | The log of the prior volume of nested sampling goes down by its mean over fair draws | The log width of Nested.lean against the mean log of the prior volume above the k-th worst of N independent draws | Order statistics of uniform draws by binomial counts and the layer-cake formula; the probability integral transform for any prior and any likelihood without plateaus; induction over the iterations | proved |
| C122 | Ordering engines keep orders evenly spread over the good ones | The executeOnce functions of Orders.lean, as maps on all orders of the items | A try that is its own inverse (switch), or injective on orders (reverse, move, shuffle), keeps sums over the good orders; counterexamples count all walkers and all random numbers of small problems in the kernel | partial |
| C123 | The evidence is right within 1/N and the error of the volumes | The evidence of Nested.lean after any number of iterations against the integral of the likelihood over any prior | Step functions under and over the likelihood, integrated; Abel summation; closed form of the weights (C04) and ascending samples (C52) | proved |
| C124 | Fair numbers through the priors have the prior density, so the evidence is the integral of likelihood times prior | the measure that the map of the prior makes of the uniform one on [0,1); the product of these over the parameters | change of variables with the derivative of the map from domain to unit (C15), folding of three times a fair number, product measures by induction over the parameters | partial |
| C125 | A weight of n counts as n observations | fitters and error distributions with weights and with repeated points (no new model) | weighted sums over the points are sums over the copies; then the whole fit is equal; counterexamples for what ignores or misuses weights | partial |
| C126 | Weights equal to the inverse squares of the accuracies give the same fit | the same with accuracies and with weights (no new model) | the weights used in the fit are equal; constants in the likelihood; counterexamples | partial |
| C127 | The fitted curve does not depend on the way the model and the data are written | two linear models with the same curves over the data; a map of x | the minimum of chi squared is unique as a curve; matrices between the bases give covariance and determinant | proved |
| C128 | Which compound and fixed models are linear, and that the linear fitter is exact for them | The compound models of C17, the fixed models of C22 and the linear fitter of C30, brought together by one notion: a model is linear when for all parameters its result is an offset plus the inner product of parameters and partials, and the partials do not depend on the parameters. | Compounds by induction over the expression; fixed models because the result is an affine function of the parameters, of which the partials, true derivatives by C22, are the coefficients; the series of polynomials by induction over the levels; a product by its mixed difference, which is zero for a linear model. | proved |
| C129 | Samples and walkers do not change after they are stored | Arrays with addresses; for each engine the order of its copies, assignments, writes and calls of setWalker, with every condition a choice and every loop repeated any number of times; the sampler as a history of engine calls, copies, rearrangements, samples and weeding. | An analysis of such programs (which variables hold an array of their own, which hold different ones) is proved right for all programs and executions, and evaluated for the ten engine programs; then induction over the history. | proved |
| C130 | Parameters of repeated and combined models have the priors set for them | The lists of priors of the repeated model, of its copies and of the repeating model itself (which may be the same object); getPrior, setPrior and the generator of all priors. | With the layout of C25 and C26: par2model is the inverse of the layout, and the selection of a combi model enumerates the parameters that are not tied; counterexamples for ties, for all priors at once and for what follows in a chain. | partial |
| C131 | The fit does not depend on the level of the noise | The fit of `Fitters.lean` and what follows it in `Evidence.lean`, for data with all accuracies or all weights multiplied by one number. | The minimum of chi squared is unique, and chi squared, the Hessian and the noise scale go with a power of the factor. That weights are relative, as the documentation says, is refuted. | partial |
| C132 | The tables of a run have one row for each sample | The evolutions of SampleList and WalkerList, numpy.asarray of rows, python indices. | Lists of rows; lengths; sums of exponentials. | partial |
| C133 | The derivative to x of repeating and combi models is that of their result | baseDerivative of RepeatingModel and CombiModel; the repetition of a chain. | The loop is that of the result; derivative of a sum; C19 for the chain of copies. | partial |
| C134 | The most likely parameters: least squares, least absolute deviations, and what that is for a constant | the error distributions of ErrDis | the log likelihood is split in a part without the parameters and a sum over residuals; a constant: convexity, log x ≤ x - 1 and a count of the data on both sides | partial |
| C135 | Classification: likelihood, gradient and uniqueness of the best parameters | Classes.lean: the Bernoulli likelihood and its gradient for several outputs; SoftMax | the loop over the outputs picks the class; logarithmic derivative; convexity of the logarithm of a sum of exponentials from convexity of exp | proved |
| C136 | Levenberg-Marquardt finds the least squares solution of a linear model | the fit loop of Verif/LM.lean with a linear model | exact decrease of chi squared in a damped half step; Young inequality bounds what is left by the decrease; induction over the loop; compactness for the bound on cancellation (Props/LMLinear.lean) | proved |
| C137 | Each turn of a robust fit lowers a robust loss | the loop of RobustShell (as for C43) | Majorisation: the penalty is the integral of t k(t), below the parabola of the weight because k falls off. At rest: first order condition of the weighted least squares plus convexity of the penalty. | proved |
| C138 | A decision tree splits categories into two sets | as for C59 and C61 | Bits of the mask: the points of category c go to the left exactly when bit c is set; floor of the random number; induction over the categories for reachability. | partial |
| C139 | A constant factor in the likelihood only shifts the evidence | The loop of the nested sampler (Nested.lean) and the engines (Engines.lean), each in two surroundings that differ in the measure of likelihood. | Every function commutes with the shift of the likelihoods, by induction over lists and fuel; the information stays the same as the two fractions of the evidence add up to 1. | proved |
| C140 | A walker is explored until enough moves are made | Explorer.exploreWalker and the selection of engines (Explorer.lean), for any engines on any state. | An invariant over the rounds, induction over the list of engines, and arithmetic of divisors for slow engines. | partial |
| C141 | Nice numbers and rounding to integers | Tools.nicenumber and Tools.fix2int (Nice.lean), with fuel for the loops. | The product of number and power of ten is an invariant of both loops. | partial |
| C142 | How many moves an engine makes | the engines of Engines.lean (the model of C09), with the number of moves each of them reports. | induction over the trials and steps of each engine: the count is bounded by the steps, and equals them when no trial is refused; the draws of the start engine are counted by an inductive relation. | proved |
| C143 | More data, more terms and more kept parameters | Fitter.fit and getCovarianceMatrix for linear models, two fits compared. | The optimum of one fit is compared with the parameters of the other one (C30). The inverse of a positive definite matrix gives the maximum of 2 u·v - v·Av; the Hessian of the second fit is larger on the parameters that it fits. | proved |
| C144 | Each parameter goes to unit space and back by its own prior | Engine.domain2Unit, unit2Domain, makeIndex, getUnitMinmax and getUnitRange, with what they ask of problems, models and error distributions. Priors are pairs of maps. | Induction over the list of selected parameters; case distinction on the index. The box follows from C41 and monotone maps. | partial |
| C145 | The noise scale is an average of the residuals | getScale of the Gauss, Poisson, Laplace, uniform and Bernoulli distributions, getResiduals. | Weighted averages: monotone, and the square of an average is at most the average of the squares (the variance is not negative). | partial |
| C146 | A second place is always another one, and all others are equally probable | The loops that draw another place in the move and switch engines, with the calls they are part of. | Induction over the draws; a swap of two places maps the sequences that end in the one to those that end in the other. | partial |
| C147 | A mixture of error distributions is a weighted sum of likelihoods | MixedErrorDistribution.logLdata with the exception it may raise. | Case distinction on the fraction; the logarithm is concave and a sum of concave functions is concave. | partial |
| C148 | Copies from the phantoms are fair | pick and locate of Verif.Boost (C109). | Exchanging two phantoms maps the sequences by which the one is chosen to those for the other; induction over the groups. | proved |
| C149 | The numeric slopes of a prior are its slopes | The two numeric derivatives of Prior (PriorSlope.lean) on the prior objects of Priors.lean, with floats that may be infinite or nan for the slope. | The symmetric difference of a differentiable function tends to its derivative; exact for polynomials of degree two and for straight pieces; the logarithm is minus infinity outside the limits. | partial |
| C150 | The attributes of walkers, samples and error distributions keep their types | The three functions of Tools that assign attributes and __setattr__ of Walker, Sample, ErrorDistribution and MixedErrorDistribution (Records.lean), on the values and objects of Attributes.lean. | Induction over the assignments; for each name the value stored has passed the test of its type; the binding of the likelihood is only changed together with the constraint. | proved |
| C151 | Linear and non-linear parameters of a mixed model are told apart | The set of linear indices of a NonLinearModel with the calls that change and ask it (Mixed.lean). | Induction over the calls; counting of a set difference. | partial |

## Remarks per property

What is missing from a partial property, and other limits of the theorems. The theorems themselves are listed in `MANIFEST.json`.

* **C07** Engines enter through the contract that they change only the asked walker.
* **C08** Without iteration limit, stops when the likelihood is bounded.
* **C09** Every engine, all draws, all likelihood functions; start engine for static models only (for dynamic ones see C97); grow/shrink/vary are arbitrary functions here (their laws: C23, C24); with the default noBoost. Each stored walker has the likelihood of its parameters, is not below the level, and moves fitted parameters only; the returned number counts the stored walkers.
* **C10** Vectors of any length; trial steps of at most one in each direction.
* **C12** Walkers strictly inside the unit box, not precisely on an edge of the widened bounding box; random numbers strictly between 0 and 1. For a walker on the edge of the unit box it is false (C12_counterexample).
* **C13** For every prior object made by a constructor and any sequence of setLimits calls that do not raise; real arithmetic; erf/erfinv are the mathematical functions.
* **C14** In the interior of the unit range for all limits, on the closed range for two finite limits (C14_closed). False after an assignment to scale, after a setLimits that raises, after unsetLimits, and at unit value 0 with an infinite limit (counterexamples).
* **C15** For priors as constructed; setting limits later leaves the density stale (C15_counterexample_setLimits); circular priors differ by a factor 3 (C15_counterexample_circular).
* **C16** Folding by whole periods for the uniform circular prior; base period and round trip for all; other priors do not fold (C16_counterexample), and setLimits spoils a circular prior (C16_counterexample_setLimits). Made with a period, or with limits and no center, the density is the same at both ends (C16_seam_partial); with another center it jumps there (C16_counterexample_seam).
* **C18** Single-valued models of one dimensional x. True for copied compounds and for those whose last operation is not a pipe into a compound, when no piped model with fixed parameters is followed by another (counterexamples proved).
* **C19** Single-valued models of one dimensional x. True for copied compounds and for those whose last operation is not a pipe into a compound (C18_counterexample shows the failure).
* **C20** priors are looked up, names too, and set, in chains with brackets of any depth. When less priors than parameters are set the last one is used for the others (counterexample_repeat shows the consequence).
* **C21** models in memory behave as values, for every program of new, copy, operators, in-place operators and parameter assignment on models built from base models; counterexamples: m += m never ends, a chain that starts with an explicit BracketModel loses parameters when it is copied
* **C22** The derivative to x only without fixed models; with fixed models the code differentiates numerically. Counterexample: a Kernel2dModel with a model as fixed value has npbase too small.
* **C24** Births in full; deaths when all removed parameters were being fitted, otherwise counterexamples.
* **C26** Result in full; partials when no parameter is tied both by offset and by factor, otherwise C26_counterexample.
* **C27** Gauss, Laplace, Cauchy, Exponential, Poisson, Bernoulli (one output), Uniform, and mixtures of two distributions with any number of hyperparameters: right when the second distribution has one (C27_mixed_general), or when only its last one and the fraction are fitted; the numeric gradient is used when anything before the third from the end is fitted (C27_mixed_numeric); wrong when the second has two or more and the third from the end is fitted (C27_counterexample_mixed_second); a second distribution without hyperparameters raises (C27_counterexample_mixed_none). For Laplace, Cauchy, Uniform and Exponential the derivative to the scale is right only when the data have no accuracies (C27_counterexample_accuracy).
* **C28** Additivity and order independence in full. The alternative formulas agree, except that of the uniform distribution for cyclic data (C28_counterexample_uniform); of the alternatives for the gradient those of Laplace (scale) and Bernoulli are wrong (counterexamples).
* **C29** Unweighted, not cyclic data. Poisson with the exact log factorial.
* **C30** numpy.linalg.solve is a parameter of which only is asked that what it returns is a solution. Together with normalize it holds when no parameters are kept; with both it does not (C30_counterexample_normalize).
* **C31** The QR fitter minimises the squares of weight times residual; that is chi squared only for weights 0 or 1, and only when the decomposition is made in the same call (C31_counterexample, C31_counterexample_stale).
* **C32** Chi squared is raised by one before the first step, so that one may be worse than the start (C32_counterexample_first). Kept parameters are kept when no starting parameters are given (C32_counterexample_keep).
* **C33** Index, stored values and insertion in full; the number of fitted parameters is right only for parameters kept in the constructor (C33_counterexample), and negative keys are fitted nevertheless (C33_counterexample_negative).
* **C34** proved for arctan, exponential, Gauss, logistic, power, power law, sine, sine-phase, sine-amp, etalon, sine-drift, kernel, sinc, Voigt, constant, harmonic, poly-sine and Pade models. Lorentz and pseudo-Voigt only for positive widths (with a counterexample for negative ones); a pseudo-Voigt with a fixed parameter other than the balance fails (counterexample); EtalonDrift's x derivative always raises (counterexample). The derivative to x of the spline-sine models always raises (counterexamples); their partials are proved. User models are not covered; orbits are in C87-C89.
* **C35** over the reals, for every degree
* **C36** columns, smoothness and pieces for every order; the x derivative for cubic splines and for two knots; for other orders it is wrong beyond the first inner knot (counterexample). The knots are taken in order.
* **C37** All 19 kernels: shape, range, derivative (with proof that there is none at the listed edges), integral (the sinc as a limit; the Huber kernel is not integrable, as advertised).
* **C38** Order C in full for any number of axes; order F only for square images (C38_counterexample_fortran): the indices follow memory order while getydata reads in Fortran order.
* **C41** True when each level asked is above the ones before; at an equal or lower level a stale cached box is returned (C41_counterexample) and the level -inf is not answered (C41_counterexample_first).
* **C42** Full without kept parameters; with kept ones only when no hyperparameter is fixed, otherwise an IndexError (C42_counterexample).
* **C43** The inner fitter is arbitrary. maxIter = 0 raises an error, proved as a counterexample.
* **C44** Proved for all natural numbers and for arrays of any length but one. An array of length one raises an error and a negative number wraps around in the table: both are proved as counterexamples.
* **C45** Models: the copy of a compound gives the same results. Priors: as they come from the constructor (also circular with limits, and exponential); after setLimits the copy has another density (C45_counterexample_prior). Independence is by value semantics: copy passes numbers only.
* **C47** Holds only while walker ids equal list positions; the engines pass walker.id where an index is expected (C47_counterexample).
* **C48** The crossing test has a sign error; right only when both stretches start at the same y (counterexamples proved both ways).
* **C49** Exact for discard=1. C49_any says what happens with any other number, C49_only_one that the volumes then never add up to one (C49_counterexample: discard=2).
* **C50** Exact for discard=1 during the iterations; not too low during the iterations for any discard (C50_at_least). The final update uses a stale floor and reports too low a value (C50_final_at_most, C50_counterexample).
* **C51** True for the first call only; later calls keep the earlier samples (C51_counterexample).
* **C52** True for the samples of the iterations; the remaining walkers are stored unsorted (C52_counterexample).
* **C53** Size and contiguity for all lists. That the lowest weights go is proved when the weights rise and fall once (C53_lowest_partial); in general it is false of the code, which compares the two ends only (C53_counterexample).
* **C54** Width to within 1e-7 of one half, the precision to which the widths are given in the code.
* **C55** False for the tophats with convolutions and missing for triangle, tricube and sinc (counterexample); proved for the other nine kernels.
* **C56** Start, random, Gibbs and step engine in full. The chord engine under the conditions of C12. The Galilean engine for up to 16 fitted parameters (C56_galilean_partial); with more it can leave the range, because the mirrored velocity may be larger than the box (C56_counterexample_galilean, with 25 parameters).
* **C57** Table stays right and accepted tours have the nearest neighbour adjacent.
* **C58** limits round trip for all chains. hasLimits and the conversions of all parameters at once only for chains without brackets (and, for the latter, without components that have no parameters or no priors); with brackets they fail (counterexamples). hasPriors only looks at the first component (counterexample). Limits on one side only raise (counterexample). hasLimits for fitted parameters only: holds for ascending numbers and a prior per parameter; otherwise counterexamples.
* **C59** Proved for derivatives to all parameters. With a list of parameters (fixed models) basePartial takes the list for a list of points: C59_counterexample_parlist. The documentation says that values below the split go to the left; the code sends the values above it to the left (C59_split).
* **C60** True for trees that decide on categories. False with a split, which is relative to the lowest and highest value in the table: C60_counterexample.
* **C61** The bookkeeping, births and variations are proved. The death of a right leaf next to a branch deletes parameters of other leaves (C61_counterexample_shrink); the rest is C61_shrink_partial. In a compound model grow compares with the wrong number of parameters (C61_counterexample_chain), and a variation to another type of dimension leaves the old split (C61_counterexample_vary).
* **C62** Copies, decode after encode, and trees with a depth are proved. The constructor with a code makes a model with one parameter: C62_counterexample_constructor.
* **C63** fopt is the best of all values computed: proved for all runs. That the returned point has that value: proved without annealing and callback, for a start that is not flat, when no two different points evaluated have equal values; counterexamples for equal values and for flat starts (xopt is a view of a corner).
* **C64** Proved for all runs in which the first simplex was not blown up (any temperature); counterexample when the start is flat: inflateSimplex compares a corner with itself.
* **C65** Proved without annealing for starts that are not flat; counterexamples: a constant function loops for ever, checkSimplex refuses proper starts and accepts degenerate ones.
* **C66** Quadratic form with the inverse of the covariance matrix, and the gradient to model parameters, targets and scale. The model (result, partial, derivative) is a parameter.
* **C67** True for one set of accuracies and for covariance matrices, after all histories of copies. For a table of accuracies true right after construction only: each copy squares the variances of all problems sharing the table, proved for any number of copies (C67_counterexample_copies); the user's table is overwritten (C67_counterexample_table); a single number is squared twice (C67_counterexample_scalar).
* **C68** False of the code: the integral is √(2π), proved for all positive definite covariances; the norm has log 2π once under the factor -1/2 where it is needed twice.
* **C69** The maps of the model and of the prior are parameters; C13 has theorems about them.
* **C70** Correspondence of residuals, weights and rows of partials and the Gaussian gradient are proved. The noise scale is not the root mean square: C70_counterexample_scale. Cyclic models are left out here (C40).
* **C71** Exact for parameters kept in the constructor or not at all, and for weights or accuracy arrays but not both. Counterexamples: an array of accuracies together with weights; parameters kept in the call of fit; a sum of models, for which the ranges of the first one are used.
* **C72** Proved up to a factor of the limits and of the number of degrees of freedom, which should be 1 and is not: see the counterexamples.
* **C73** Proved for weights that are on average 1 and parameters kept in the constructor. Counterexamples: other weights; parameters kept in the call of fit.
* **C74** Proved for parameters kept in the constructor or not at all; false for parameters kept in the call of fit.
* **C75** border=0; the linear solver is assumed to return a solution when it returns
* **C76** border=0; the solver is assumed to return a solution, and only for regular matrices
* **C77** Probabilities, partials, derivative and shift in full. Partials of a model with fixed parameters have a column for every parameter (C77_counterexample_fixed).
* **C78** Products, number and derivatives in full. The names of the parameters follow another order than the parameters (C78_counterexample_name).
* **C79** Shifted shapes and constants in full. In the default model pixel k runs from k-1 to k (C79_pixels_partial), and in the last unit of the domain the result is always 0 (C79_counterexample_last): the center has the wrong sign.
* **C80** Everything in full at one point, and for arrays when there is more than one parameter (C80_array_partial). At the last knot the derivative is 0 for all parameters (C80_counterexample_end); with a single parameter the matrix of an array is transposed (C80_counterexample_single).
* **C81** For increasing knots.
* **C82** Proved for Gauss, Laplace and, with power 1, the exponential distribution; for the uniform one the returned scale is the infimum of those with a likelihood. Counterexamples: exponential with another power, uniform, Cauchy.
* **C83** Proved for Gauss, Laplace, exponential and uniform. The Cauchy distribution has no standard deviation: counterexample.
* **C84** Functions and gradients proved for all; hessians of models linear in the parameters are half (chi-squared) or minus (Gauss without weights) the second derivative, with weights the weights are squared: counterexamples.
* **C85** Proved without accuracies for the likelihood, and with weights for the scale. Counterexamples: scale without weights, accuracies, automatic scaling, and the exponential distribution where asking for the scale changes the likelihood.
* **C86** Kept parameters proved. Limits are handed over in a wrong form: counterexamples.
* **C87** Laws, uniqueness and accuracy after convergence proved for all eccentricities. That the default iteration converges is proved for e up to 1/4 only. The method eccentricAnomaly0 has a wrong sign: counterexample.
* **C88** Line of sight proved. Derivatives proved except within cos E <= -0.9999999999, where the code caps a divisor. Semi major axis and mass take the parameters in the wrong order: counterexample.
* **C89** Projection and coordinates proved. Derivatives proved except within cos E <= -0.9999999999, where the code caps a divisor, at the centre itself, and for the position angle at its branch cut.
* **C90** Result, nesting of the shapes and partials proved for the kernels whose result from the square is right. Derivative: not at the centre of circular and elliptic shapes, where the code divides by zero (counterexample). The angle turns clockwise, not counterclockwise as documented (counterexample); the amplitude of a new model is not 1 as documented (counterexample); triangle, tricube and sinc have no two-dimensional result and the convolved tophats a wrong one (counterexample).
* **C91** Any history proved for polynomials and harmonics. Copy: a harmonic model without harmonics cannot be copied (counterexample), nor can the example of the manual be made (counterexample).
* **C92** The exact rates are proved for both default grow priors. The equilibrium is not the grow prior: with a uniform one it is binomial (proved), with an exponential one the first component is more probable than none (counterexamples).
* **C93** Minimum, limits and kept values proved for positive weights. Data with weight 0 do count (counterexample); kept parameters stay kept in later fits (counterexample); kept parameters with the limits of the priors make the fit impossible (counterexample).
* **C94** Size, floor and evidence hold for every run. That no walker is lost holds for ensembles of 100 and more after the first iteration (C94_others_kept_partial). It fails otherwise: below 100 walkers the best one can be deleted (C94_counterexample_best), after the initial exploration of a nonlinear model the surplus is taken from the top (C94_counterexample_first), and with ensemble times step below 100 the sampler raises (C94_counterexample_small).
* **C95** Holds for the scale and the fraction. It fails for limits on the power (C95_counterexample_power, _set_limits), for keepFixed and the argument fixed (C95_counterexample_keep, _fixed), and for copies, which share their hyperparameters and reset the scale to 1 (C95_counterexample_copy, _shared).
* **C96** True for linear models without weights, with the automatic arbiter or 'fitter' (with limits on the noise scale but for the factor of C72). False with weights (they are not handed on), with a fitter object (it keeps its own model) and with 'nested' (10log, noise scale 1). Iterative fitters as arbiters are not modelled.
* **C97** Proved for a dynamic model at the head of its chain, or when the likelihood is finite at the first trial. Counterexamples: after a failed trial the offset of the dynamic model is lost; everything that is not fitted becomes 0, so that a fixed noise scale makes the start impossible; the number of components follows a product of draws, not the grow prior (its exact distribution is proved).
* **C98** The state of the generator is part of the model; a function counts the draws. Engines are assumed not to put numbers back. Threads are not modelled.
* **C99** All proved, except that priors are right only when no model follows the football model, and that nothing holds with fixed parameters; both are shown by counterexamples.
* **C100** Tours, likelihoods, order of the samples, floor and size of the ensemble hold for every run. The rest is false: the best walker can be overwritten and lost, the last sample need not be the best, keep is ignored, ShuffleEngine and any given distribution raise, and so does a walker that cannot move.
* **C101** Proved: the exact result of a birth, a death and a variation; the invariant over all histories of them; the alternative variation; the start on equidistant knots; success for draws that leave room. Assumes that the basis can be made for ascending knots. False as stated, with witnesses: a birth never ends when no gap is wide enough, the last knot may be asked for in vary and then raises, behind other models a death uses the prior of another parameter, a copy loses the border, a birth lets a kept parameter be fitted, with minKnots below 2 a death of two knots raises.
* **C102** Proved: standard deviation over the cycles, only fitted parameters are varied, repeatable from a fitter, non-negative; on average the square of the error is (m-1)/m times the variance, for all linear models and uncorrelated standard random numbers. So the average is false as stated (too small; zero for one cycle); and the generator is the global one of numpy, so that objects disturb one another.
* **C103** Proved with the error bounds for models with and without fixed parameters, for the derivative to x, for strictly numeric partials of any result, for the fallback of the likelihood, for UserModel without fixed parameters and for the columns of AstropyModel. It fails, as shown by counterexamples, for positive parameters closer to zero than half a step, for models among the fixed parameters of a model without partials, for UserModel with fixed parameters or extended in place, and for the derivative of AstropyModel.
* **C104** Evidence, normalisation and history of calls proved for all runs. That the samples are those of the last call holds for the first call only: counterexample for later ones. For a linear model a second call makes no iteration: counterexample.
* **C105** Proved as long as the error distribution is not replaced after the engines were set, and the data not after ndata was read. Counterexamples: distribution replaced, unknown engine name, upper case in engine names, problem evidence by name, ordering problem, dynamic model with errors or multiple, limits with a distribution object, lists as accuracy or weights, the fitter of bestBoost, number of data after new data.
* **C106** result for all chains; derivative not for differences of models with more inputs and more outputs nor for products and quotients with more inputs; partials not for products and quotients of models with more outputs (there the code raises or takes the wrong points, counterexamples). A piped model that is not the last must tolerate the inputs of the chain. Brackets only as single models.
* **C107** Proved for lists which are not changed after the first read: means, standard deviations, median, modus, circular and model averages, in any order of reading. Not true in general: standard deviations, hyperparameters, median and modus are kept when samples are added or removed (C107_counterexample_stale); the evidence of the list stays 0 (C107_counterexample_evidence); standard deviations of the hyperparameters cannot be read first (C107_counterexample_stdev_hypars); without normalization the averages are multiplied by the sum of the weights; errors at other points of equal number are those of the earlier ones; the sample with the highest likelihood may have been weeded; dynamic models raise or mix.
* **C108** An access is one read or write of the list of walkers, the list of phantoms or the generator; accesses are taken as atomic, as they are in CPython. An engine is modelled as making its new walker from the old one and one number. Independence of the schedule is false (C108_counterexample_seed) and proved for engines that do not use the common generator.
* **C109** All statements about copies, the choice of a phantom, the end of the loop and the likelihood after a boost are proved; what does not hold is in the counterexamples. Fitter and likelihood are parameters.
* **C110** Proved that the units fit for the arctangent, exponential, Gaussian, Lorentzian, logistic, all kernels (one input; ellipse of two inputs), Voigt, sines (three forms and with drift), etalons, polynomials, Chebyshev, harmonics, Padé, splines, sine with splines, B-splines, polynomial sine amplitudes, layers without offset, for compounds by + - * / and repeating models; the integral unit; the range. Proved not to fit: power, power law, pseudo-Voigt, radial velocity, stellar orbit, sine with drift and splines, polynomials and splines in two inputs with different units (or an order other than 3), round kernels with different units, layers with offsets, products with a unit for y, units set on a compound or a bracket, models with a fixed parameter, free shapes at the border.
* **C111** Proved for any fit method that finds the minimum with kept parameters, of which the linear fitter is one: parameters beyond a limit end on it, the rest is the best with these values, all are returned. For a convex objective and one transgression it is the best inside the limits (C111_box_partial). False: the second fit can be outside the limits, two transgressions can miss the best one, kept values outside the limits are moved, and together with parameters kept by the constructor the returned list is shorter, limits are not looked at and values of the call are overwritten.
* **C112** Proved for Gauss, Cauchy, Poisson, Uniform and for Exponential unless the power is fixed and the scale is not; for Laplace without its scale. False for Laplace with its scale, for Exponential with only the scale, and for Bernoulli.
* **C113** Proved for chains, brackets, fixed parameters, combi and repeating models, dynamic histories and the models with names of their own. Not so, with counterexamples: polynomials with fixed parameters are called wrongly, a parameter replaced by a model in brackets has no name, a repeating model without 'same' raises, names made by a class are no attributes, names in a chain may coincide.
* **C114** Proved for 39 classes with every history of settings, with the exceptions in Copyable, which are proved to be real: a BSplinesModel loses eps, a dynamic spline loses its border, a dynamic harmonic of order 0, a UserModel and a BasicSplinesModel of higher order with fixed parameters can not be copied. Priors: proved for all histories without repeating models; with them the copy shares the inner model. Static repeating models can not be copied; combined models lose their parameters and their chain.
* **C115** Proved: the result of every chain without fixed parameters is that of the proper parameters, signs do not matter, correctParameters is right; for all nested models the second evaluation is the same, only signs and zeros of the array of the caller are changed. False in the code, with counterexamples: the array of the caller (and that of the model) is changed by asking for the result; the partial at a negative value is minus the derivative; correctParameters raises or changes the wrong parameter when parameters are fixed; a model for a parameter that must not be zero works for one datum only.
* **C116** Proved for 21 classes and all values, but for lists of strings, which may hold numbers (counterexample). Also false in the code, with counterexamples: a FootballModel is changed by a refused assignment of its complexity; a square of numbers is accepted for the parameters; an array of floats is shared with the caller; lists of bools are refused where a bool is accepted; numpy.float32 is refused; the degree can be set without a change in the number of parameters; the value of a ConstantModel may have any length. BSplinesModel, FreeShapeModel and KernelModel have assignments of another kind and are left out.
* **C117** Knots, averages, multiplicities and the ranges of the functions are proved for all sites and orders; derivatives of all orders at all points that are not knots; the diagonal is positive for all sites but the last, and there is exactly one spline through any values at all sites (at the last one as a limit), by the theorem of Schoenberg and Whitney. False in the code: the last row of the matrix is zero for every set of sites; order 0 and one site raise; too many equal sites at the end are accepted; averages of integer sites are cut off. Missing: derivatives at knots.
* **C118** Ids, serial numbers and stored values hold for all engines that store walkers with Engine.setWalker. Parents are never -1, as documented, but always the id of the walker itself. The start of samples is right only for engines which store copies of the walker (Galilean); with the others it is always 0, and frames of a movie show too many points. The rank is right for one discarded walker per iteration, and wrong for more (counterexample).
* **C119** Proved as stated. The counterexamples mark the boundary: with as many phases as parameters a HarmonicModel alone may not be determined, and with kept parameters numbers of data do not decide for polynomials.
* **C120** Proved for chords in any given directions (any number of parameters, any measurable likelihood) and for the random engine, on the part of the region inside the box in which they draw. False for the Gibbs engine with a range below 10/11 and for the step engine: near the edge of unit space fewer walkers than their share end (counterexamples for every such range). False for the random engine on the part of the region outside its box. Not covered: directions that depend on earlier failures, the Galilean engine, more than one parameter in the step engine.
* **C121** The fractions of the prior above fair draws are uniform (probability integral transform), the k-th largest of N uniform numbers has mean log -(1/N+...+1/(N-k)), and that is what updateEvidence and the iterations take from the log width. The likelihood must have no plateaus: C121_counterexample_ties shows that with a constant likelihood nothing is above the worst walker, though the sampler takes the volume to shrink as always. That the walkers stay fair draws is a hypothesis here; C120 says which engines keep that.
* **C122** One try of the switch engine is even for every likelihood and threshold; move, reverse and shuffle are even where every order is good enough. In general the claim is false of the code, with counterexamples: OrderEngine.execute repeats failed tries until one succeeds, the reverse and move engines retry with shorter stretches, and the loop and near engines only go one way (against the documentation of NestedSolver, mixing them with engines that are even does not restore it). Missing: nothing can be proved of the full claim, as it is false.
* **C123** Upper and lower step functions of the likelihood at the stored samples, integrated over the prior; Abel summation against the weights of the samples (C04). About the state at any iteration; C123_final is about the complete run, and C123_priors about the integral of likelihood times prior densities (with C124). The assumption on the volumes is right in the mean of the log (C121) when walkers are fair draws (C120).
* **C124** Proved for priors as their constructors make them, one parameter and all parameters together, circular ones included. Missing, as it is false: limits set afterwards (setLimits, which Model.setLimits uses for a prior that exists already). The maps follow, the density does not (counterexample, for the Laplace prior). C124_chance holds for those too. A circular prior with both a period and limits is left out.
* **C125** Proved for the linear and the Levenberg-Marquardt fitter with everything that is asked after a linear fit, and for the Gauss, Laplace, exponential and (weights not zero) uniform distributions. Counterexamples: the QR fitter squares the weights, an accuracy for each point is counted once in the likelihood, mixed distributions, the Cauchy, Poisson and Bernoulli distributions take no notice of weights, uniform with weight zero.
* **C126** Proved for the linear and the Levenberg-Marquardt fitter and for the likelihood of Gauss. Not only the evidence differs: noise scale and standard deviations do too (C126_counterexample_scale), and for other distributions, such as Laplace, the best parameters (C126_counterexample_laplace).
* **C127** For the fitters of which the model is exact: Fitter (and QRFitter without weights, CurveFitter when the optimum is within its limits). The linear solver is a parameter that solves regular systems. Without kept parameters. The evidence theorems have limits for each parameter.
* **C128** Proved for all expressions, all dictionaries of fixed parameters and any number of levels. The manual says that fixed models are linear only when fixed with constants; linear models do as well (C128_fixed, C128_nested), so the manual is too careful here. Quotients by and pipes into models with parameters are not claimed either way.
* **C129** C129_engine, C129_samples, C129_walkers and C129_allpars; C129_counterexample_hypars: with nuisance parameters Walker.hypars contains the targets too, unlike the hyperparameters of its sample. Hand-written abstraction of the array operations of each engine is part of the trusted base.
* **C130** Repeating models one parameter at a time, and dynamic harmonics, in full. Combi models without ties, for the first copy, or when only the first copy has priors (C130_combi_*_partial); with ties the wrong prior is found (C130_counterexample_combi), and a model that follows is never asked (C130_counterexample_combi_chain). All priors at once: every parameter beyond the first component gets the last prior (C130_counterexample_repeating_all), none are found when set later (C130_counterexample_repeating_later), harmonics likewise (C130_counterexample_harmonic). After a repeating model priors of the next can not be set (C130_counterexample_repeating_chain).
* **C131** All factors, models and data for parameters, chi squared, scale, covariance and standard deviations. The evidence is the same unless weights are combined with an array of accuracies (C71_counterexample_weights). The documented claim that weights are relative is refuted.
* **C132** Static models, weights, numbers and WalkerList.allPars in full. Tables of dynamic models are not padded, as documented, but raise an error whenever the numbers of parameters differ (C132_counterexample_dynamic).
* **C133** Derivatives in full. A compound model can not be repeated: in each component its second model gets no parameters (C133_counterexample_compound).
* **C134** False of the code for categorical data: the model value is the likelihood of a datum of 0, where the documentation says True (C134_counterexample_bernoulli); C134_bernoulli says what does hold. The documentation of ExponentialErrorDistribution says that its scale is not that of Laplace, which it is for power 1 (C134_exponential_one).
* **C135** Weights are not accepted by this distribution; a fixed parameter in a softmax model is C77_counterexample_fixed.
* **C136** For models linear in their parameters, without limits. The linear solver is a parameter that solves what it solves and solves all regular systems; the error raised at chi squared zero is excluded by hypothesis in the theorems of success.
* **C137** For two-sided fitting (onesided = 0); the inner fitter is any fitter that returns a least squares solution over a set of parameters, and a scale that is not negative. One-sided weights are outside the statement: a residual that changes sides breaks the bound.
* **C138** False in three ways, each proved: one in 2 ^ ncat of the random numbers selects no category at all, half of the random numbers separate no booleans, and a variation can empty the mask, after which the tree fails its own check. Proved: every non-empty set has its own range of random numbers, of the same length; variations move one category and reach every division. For a tree with one branch.
* **C139** C139_run is about the sampler with any engines that meet Scaled; the theorems for the engines show that the modelled engines do, with the box in unit space taken from the same phantoms. The Galilean engine interpolates log likelihoods and is only invariant for a factor. Birth and death are stated for growth and removal that do not look at the likelihood.
* **C140** The last sentence is false of the code: when all engines are slow there are iterations without engines, and the exploration raises as it looks at a walker that it has not chosen (C140_counterexample_all_slow). The rest is proved.
* **C141** The last sentence is false for negative integers, which are rounded to one higher (C141_counterexample_negative); it is proved for the others (C141_fix). The rest is proved for real numbers.
* **C143** C143_data, C143_terms and C143_kept are about chi squared, C143_variance about the covariances. Linear models and Fitter without normalization; the linear solver is a parameter that solves the equations (trusted).
* **C144** Proved with the specification Own. Missing: a hyperparameter without prior becomes zero (C144_counterexample_no_prior), and with less values than parameters the values go to the last hyperparameters (C144_counterexample_short). The box holds at levels above all levels asked before (C41).
* **C145** Proved for the Gauss, Poisson, Laplace and uniform distributions. With a Bernoulli distribution the residuals are those at an empty parameter list, because allpars[:-0] is empty: a perfect fit has a scale of 1 (counterexamples).
* **C146** Proved for two or more parameters; the model of C01 and C122 (Verif.Orders), in which the loop is replaced by its outcome, is shown to have the same outcomes. With one parameter both engines run for ever (counterexample).
* **C147** Proved when the second distribution has hyperparameters. Without them (Poisson, Bernoulli) every likelihood raises (counterexample).
* **C148** Sequences of draws are counted, any number of them. That the loop may run for ever when no phantom is above the level is C109.
* **C149** False within deltaP of a limit: numPartialLog tests the point but not the two places where it takes the logarithm (C149_counterexample_edge: plus or minus infinity, or nan). Proved where the whole step is between the limits: exact for uniform, Gauss and Laplace (C149_exact), in the limit of small steps for all kinds (C149_slope, C149_density).
* **C150** All histories of assignments. Not modelled: nan, infinities and complex numbers as values; the scale of a scaled distribution, which is passed on to its hyperparameter; changes within a stored list or array.
* **C151** False for indices that are negative or too large: they are accepted, the model is mixed, and all parameters are still reported as non-linear (C151_counterexample_index). Proved for all histories with valid indices (C151_split_partial) and, as a set difference, for all (C151_index_partial).

## Trusted base

* Lean's kernel (4.33.0) and the axioms `propext`, `Classical.choice`, `Quot.sound`, which are the standard
  ones of Lean and Mathlib. No axioms of our own, no `sorry`, no `native_decide`, no `bv_decide`.
* The definitions of Mathlib that appear in the statements: real numbers, derivatives (`HasDerivAt`),
  integrals, `Gamma`, matrices, lists and permutations.
* The translation from python to the model, made by hand. Each definition cites file and lines; where it
  simplifies, its comment says so.
* Assumptions about external routines, each a hypothesis or a definition that can be inspected:
  `numpy.linalg.solve/inv/qr` solve the equations they are meant for (`SolveSpec`, `SolveRegular`, `SolveComplete`, `QrSpec`
  in `Props/Fitters`); `scipy.special.gammaln` and `psi` are log and logarithmic derivative of Mathlib's
  `Gamma`; `erf` and `erfinv` are the functions of `Verif/Erf`; `scipy.special.wofz` has the differential
  equation of the Faddeeva function (`IsFaddeeva` in `Props/Simple`, shown to have a solution);
  `scipy.optimize.bisect` returns a zero between ends of opposite sign and raises otherwise (`BisectSpec` in
  `Scales`); `scipy.optimize.minimize` takes one pair of bounds per parameter and stays within (`MinimizeSpec`
  in `MaxLike`); `scipy.optimize.curve_fit`
  returns a minimum of its sum of squares within the bounds (`CurveSpec` in `Props/Curve`); sorting routines return sorted permutations; random generators return values in their ranges, and in `Invariance` independent and uniform ones.
* Floating point is not modelled: a theorem about `ℝ` says nothing about rounding, overflow and NaN.

### Axioms of each theorem

As printed by `#print axioms`. No theorem depends on anything else than `propext`, `Classical.choice` and `Quot.sound`.

* none (8 theorems): `Dynamic.C24_counterexample`, `Dynamic.C24_counterexample_raises`, `Images.C38_counterexample_fortran`, `Setup.C105_counterexample_evidence_copy`, `Threads.C108_counterexample_errors`, `Threads.C108_counterexample_boost`, `Boost.C109_option`, `Boost.C109_counterexample_copymode`
* propext (24 theorems): `Heap.C21_counterexample_bracket`, `Orders.C47_only_kw_changes_partial`, `Orders.C47_counterexample`, `Routing.C58_counterexample_onesided`, `Routing.C58_counterexample_brackets`, `Routing.C58_counterexample_fitted_order`, `Football.C99_counterexample_priors`, `Solver.C100_counterexample_distribution`, `Setup.C105_counterexample_limits`, `Threads.C108_walkers`, `Threads.C108_single`, `Threads.C108_counterexample_lost`, `Threads.C108_counterexample_seed`, `Threads.C108_counterexample_append`, `Threads.C108_counterexample_calls`, `Boost.C109_counterexample_parent`, `Boost.C109_counterexample_fitter`, `Boost.C109_counterexample_no_hyper`, `Boost.C109_counterexample_empty`, `Boost.C109_counterexample_counted`, `Names.C113_counterexample_negative`, `Copies.C114_counterexample_priors`, `Orders.C146_other`, `Orders.C146_first`
* Quot.sound, propext (63 theorems): `Orders.C01_reverse`, `Orders.C01_shuffle`, `Orders.C01_loop`, `Orders.C01_near`, `C03_insert_ordered`, `C03_crop_is_filter`, `C03_history`, `C03_low`, `C03_add`, `Routing.C20_beyond`, `Heap.C21_others`, `Fixed.C22_negative_keys`, `Phantoms.C41_box_partial`, `Phantoms.C41_counterexample`, `Phantoms.C41_counterexample_first`, `Phantoms.C41_dynamic_box_partial`, `Compound.C45_model_copy`, `Routing.C58_has_limits_partial`, `Routing.C58_fitted_limits_partial`, `Routing.C58_priors`, `Routing.C58_counterexample_all_brackets`, `Routing.C58_counterexample_all_empty`, `Verif.Amoeba.C63_best_value`, `Football.C99_priors_partial`, `Setup.C105_evidence_object`, `Setup.C105_consistent_partial`, `Setup.C105_sample`, `Setup.C105_boost`, `Setup.C105_counterexample_boost`, `Threads.C108_own`, `Threads.C108_in_turn`, `Threads.C108_turn_schedule`, `Threads.C108_checked`, `Threads.C108_reports`, `Boost.C109_groups`, `Boost.C109_ends`, `Boost.C109_counterexample_hangs`, `Boost.C109_boost`, `Boost.C109_boost_scale`, `Boost.C109_counterexample_kept`, `Names.C113_counterexample_polynomial`, `Names.C113_counterexample_repeat`, `Names.C113_counterexample_attribute`, `Copies.C114_repeating`, `Copies.C114_counterexample_static`, `Copies.C114_counterexample_combi`, `Attributes.C116_accepts`, `Attributes.C116_refuses`, `Attributes.C116_counterexample_strings`, `Attributes.C116_counterexample_bools`, `Attributes.C116_counterexample_float32`, `Attributes.C116_copied`, `Attributes.C116_counterexample_constant`, `Attributes.C116_counterexample_table`, `Props.OrderSpread.C122_counterexample_switch`, `RepPriors.C130_counterexample_repeating_all`, `RepPriors.C130_counterexample_repeating_chain`, `Explorer.C140_engines`, `Orders.C146_switch`, `Orders.C146_move`, `Orders.C146_counterexample_one`, `Boost.C148_groups`, `Attributes.C150_fail`
* Classical.choice, Quot.sound, propext: all other theorems (1041) in `MANIFEST.json`

## Which parts of the code are modelled

| source | model | not modelled |
|----|----|----|
| Model.py, BaseModel.py, FixedModel.py, BracketModel.py, LinearModel.py, NonLinearModel.py | Routing, RepPriors, Compound, Pipes, Heap, Fixed | printing, `testPartial`; in Pipes (more inputs and outputs) brackets inside a chain are single models |
| Dynamic.py, Modifiable.py, RepeatingModel.py, CombiModel.py, ProductModel.py | Dynamic, Combi, Product, RepDeriv | random choice of the location is an argument |
| ArctanModel, ConstantModel, EtalonModel, EtalonDriftModel, ExpModel, GaussModel, HarmonicModel, KernelModel, LogisticModel, LorentzModel, PadeModel, PolySineAmpModel, PowerLawModel, PowerModel, PseudoVoigtModel, SincModel, SineAmpModel, SineDriftModel, SineModel, VoigtModel | Simple, Poly | docs and names |
| PolynomialModel, ChebyshevPolynomialModel, PolySurfaceModel | Poly | |
| SplinesModel | Splines | |
| MonteCarlo, BaseFitter (monteCarloError) | MonteCarlo | `numpy.linalg.eigh` is a parameter; nans in some places only; `__str__` |
| FixedModel (numeric part), BaseModel (checks), Model.strictNumericPartial, ErrorDistribution (numeric part), UserModel, AstropyModel | NumPartial | rounding; more dimensions; the astropy model is a parameter; `copy` of a UserModel keeps the numeric methods of the original |
| SplinesDynamicModel | SplinesDyn | fixed parameters, parameter names; that the linear systems of the basis can be solved is an assumption |
| BasicSplinesModel | BasicSplines | periodic borders |
| BSplinesModel, bspline, splinelab.augknt | BSplines | changing knots afterwards |
| Linear models as given to Fitter.fit | LinearModels | models in a chain, fixed parameters |
| Distribution of a walker after a move (chord, random, Gibbs, step engine) | Invariance | choice of directions, Galilean engine, more than one parameter in the step engine |
| Bspline.diff, splinelab aveknt, aptknt, knt2mlt, spcol | SplineLab | the type of the numbers but for truncation of averages of integers; plot, dplot |
| SoftMaxModel, NeuralNetUtilities | SoftMax | parameter names |
| SineSplineModel, SineSplineDriftModel, SurfaceSplinesModel, FreeShapeModel | Shapes | the derivative of SurfaceSplinesModel is not defined in the code |
| DecisionTreeModel | Tree | printing |
| kernels/*.py | Kernels | |
| CurveFitter.py | Curve | maps, reports; `inipar` as list |
| Kernel2dModel.py | Kernel2d | several x at a time |
| BaseModel.result/partial/checkParameter/checkPositive/checkZeroParameter, FixedModel.result/expand, Model.result, Model.correctParameters | Signs | the functions of the models are any functions; brackets |
| Tools.setAttribute/isList/isInstance/length and `__setattr__` of 21 classes of models, FootballModel, ConstantModel | Attributes | values are scalars, lists and arrays up to two dimensions; BSplinesModel, FreeShapeModel, KernelModel; `__setattr__` of samplers, problems, priors and error distributions |
| getParameterName, baseParameterName and parNames of BaseModel, Model, FixedModel, CombiModel, RepeatingModel, Dynamic, PolynomialModel, HarmonicModel, FootballModel, ProductModel, SurfaceSplinesModel, PadeModel | Names | names that coincide with other attributes of a model; the names that the other classes give in a list |
| `copy` and the constructors with `copy=` of 39 classes of models, of RepeatingModel and CombiModel | Copies | chains (in Heap), decision trees (in Tree), checks on types, arrays that are shared between copies other than the list of priors |
| FootballModel.py | Football | several matches at a time (rows are independent) |
| StartEngine.py for dynamic models | StartDyn | the factor for constrained distributions, setWalker, check |
| PolynomialDynamicModel.py, HarmonicDynamicModel.py, decisions of BirthEngine.py and DeathEngine.py | Growth | |
| Prior.py and all priors | Priors | |
| ErrorDistribution.py, ScaledErrorDistribution.py, Gauss, Laplace, Cauchy, Poisson, Bernoulli, Uniform, Exponential, Mixed, Gauss2d ErrorDistribution | ErrDis, ErrAlt, Classes, XYProblem, Scales (`getScale`, `toSigma`) | `partialLogL_alt` for several outputs |
| Kepplers2ndLaw.py, RadialVelocityModel.py, StellarOrbitModel.py | Kepler | `Estart`; one x at a time outside the solver |
| MaxLikelihoodFitter.py, ScipyFitter.py | MaxLike | the minimisers themselves, verbose output, `testGradient` |
| Problem.py, ClassicProblem.py, ErrorsInXandYProblem.py, MultipleOutputProblem.py, OrderProblem.py, SalesmanProblem.py, EvidenceProblem.py | ErrDis, Cyclic, XYProblem, Multi, Salesman, Setup | the evidence of EvidenceProblem is a fitter's |
| Walker.py, WalkerList.py, Sample.py, SampleList.py | Walkers, Nested, Summary, Lineage, Arrays (sharing), Evolution (tables) | plotting |
| Tools.py (average) | Summary | arrays of weights that are broadcast |
| NestedSampler.py, Explorer.py (selection of engines, loop over walkers), Engine.py and all engines | Nested, Rerun, Setup, Engines, Orders, Threads, Boost | verbose output |
| NestedSolver.py | Solver | threads, slow engines, reports, the keyword `rate` (its effect is in the options) |
| HyperParameter.py, NoiseScale.py, the constructors of the error distributions | Hyper | stdev, minimum scale |
| PhantomCollection.py | Phantoms | |
| PhantomSampler.py | PhantomSampler | a `step` that is not a natural number |
| ModelDistribution.py | ModelDist | iterative fitters as arbiter, keywords for the arbiter |
| BaseFitter.py, Fitter.py, QRFitter.py, IterativeFitter.py, LevenbergMarquardtFitter.py, RobustShell.py, AnnealingAmoeba.py | Fitters, LimitsFit, Evidence, LM, Robust, Amoeba | plotting |
| getParameterUnit, getIntegralUnit, baseParameterUnit of all models | Units | units with a zero point (temperatures in degrees), printing of units |
| ImageAssistant.py, OrthonormalBasis.py, LogFactorial.py | Images, Basis, LogFactorial | |

Not modelled at all: Formatter, IterationPlotter,
Plotter, SampleMovie: plotting and printing, or not reached yet.

## Disagreements

Where the code, as modelled, differs from the property a user expects. Those with a theorem are proved; the
others were noticed while reading and are recorded here without proof.

* `C100_counterexample_best`: C100 fails: what is returned is not the best of the samples.
* `C100_counterexample_distribution`: C100 fails: a distribution given to the constructor always raises a TypeError, whatever it is; the default works.
* `C100_counterexample_keep`: C100 fails: the keyword `keep` changes nothing, so cities cannot be kept at a place.
* `C100_counterexample_lost`: C100 fails: the best tour of the ensemble is lost. Three cities on a line; one of the walkers starts at the best tour there is, [0,1,2], and is there still when the iterations begin. The engine that explores the copy in the first place stores its result in the last place, over the best walker. What is returned is worse, and the best tour is not among the samples.
* `C100_counterexample_shuffle`: C100 fails: with ShuffleEngine among the engines every call raises, whatever the problem, the options and the random numbers.
* `C100_counterexample_stuck`: C100 fails: a walker that cannot move makes the run raise instead of being left where it is. With SwitchEngine alone this happens at a tour for which all others are below the level, for all random numbers.
* `C101_counterexample_copy`: C101, false as such: the copy of a periodic model is not periodic, while it has the number of parameters of a periodic one.
* `C101_counterexample_hang`: C101, false as such: when no gap is wider than twice the minimum distance, growth never ends, whatever the draws.
* `C101_counterexample_keep`: C101, false as such: a birth adds the new parameter to the list of fitted ones behind all parameters of the model (`BirthEngine.py` 79-168), while it is put in the middle. A kept parameter behind it moves one up and will be fitted.
* `C101_counterexample_last`: C101, false as such: the check lets the last knot through; then either the draws never end, or there is an IndexError.
* `C101_counterexample_min`: C101, false as such: with a minimum below two, a model of two knots does not refuse to shrink but raises.
* `C101_counterexample_prior`: C101, false as such: behind other models in a chain, shrinking asks for the prior of another parameter. Here all three parameters are within their own limits, the joined one is not.
* `C102_counterexample_one`: C102, false as such: with one cycle the error is zero everywhere, whatever the covariance matrix.
* `C102_counterexample_shared`: C102, false as such: there is one generator for all. After making a second MonteCarlo, with its own seed, the first one gives other errors. The state in which the user had the generator of numpy is lost.
* `C102_counterexample_small`: C102, false as such: on average the square of the error is too small, by the factor `(m-1)/m`. Here one parameter with variance one and two cycles: one half.
* `C103_counterexample_array`: C103, where it fails. Evaluating a model changes the array of parameters of the caller: negative values of parameters that should be positive are replaced there.
* `C103_counterexample_astropy`: C103, where it fails. The derivative to `x` of a wrapped astropy model is never a number: when it does not raise it is `None`.
* `C103_counterexample_chain`: C103, where it fails. A `UserModel` without partials that has been extended in place with another model (that has parameters) raises an IndexError on every call of `partial`: for its own part it asks the numeric partials of the whole chain, with only its own parameters.
* `C103_counterexample_model`: C103, where it fails. `C103_fixed_partials` does not hold for models among the fixed parameters. The first parameter of `p0 p1` is replaced by `c x`: the result is `c x p1`, the true partials are `c x` and `x p1`; the default `partial` returns `c x²` and `x² p1`.
* `C103_counterexample_positive`: C103, where it fails. The condition on the positive parameters in `C103_partials` is needed. Closer to zero than half a step the numeric partial goes down to zero (here `2 v / dp` with step 1, where it should be 1); and for a negative value `numPartial` has the wrong sign: the result is `- v + b x`, with derivative -1, the numeric one is +1.
* `C103_counterexample_raises`: C103, where it fails. When the replacing model has two parameters the default `partial` raises for all values of the parameters, though the result is fine.
* `C103_counterexample_rows`: C103, where it fails. A `UserModel` with partials of the user, with numbers as fixed parameters: what `partial` returns has not one row for each data point and one column for each free parameter. It has one row for each *free parameter*, which is the full row (with the fixed parameters) at the data point with the number of that parameter; when there are not that many data points there is an IndexError.
* `C103_counterexample_user`: C103, where it fails. The derivative to `x` of a `UserModel` (a line of which the first parameter is fixed at 1) without derivative of the user: the slope is `b`, but the derivative is 1 for every `b`, as the fixed value is taken for the free parameter.
* `C104_counterexample_linear`: For a linear model it does not: `iteration` keeps the value of the call before, so the test at the top of the loop, `iteration > end * ensemble * info / worst` with `info` 0, stops it at once. The second call makes no iteration at all; it stores its walkers, as they were drawn from the prior, and returns the evidence of these.
* `C104_counterexample_shares`: A later call mixes its samples with those of the calls before in a ratio that has no meaning: the old ones, whose weights had been normalised, come in with weight 1 and the new ones with weight `Z`, the evidence of the call. So all new samples together have the share `Z / ( 1 + Z )`: next to nothing for the small `Z` of more than a few data, next to all for a large one. It depends on the units of the data.
* `C105_counterexample_boost`: `bestBoost=fitter` in the constructor: the fitter is ignored. The constructor assigns the attribute `bestBoost`, but it is `bestUpdate` that `__setattr__` looks for; the engines use `LevenbergMarquardtFitter` (number 0), whatever was asked for.
* `C105_counterexample_case`: The names of engines are case sensitive, those of distributions and problems are not: with `lower` turning "Galilean" and "Gauss" into lower case, the distribution "Gauss" is found and the engine "Galilean" is not.
* `C105_counterexample_distribution`: Another error distribution set on a constructed sampler: the walkers are made with the new one, the engines explore with the old one. Likelihoods under two distributions are compared with each other.
* `C105_counterexample_dynamic`: The problems with errors in x and y and with several outputs do not look at the model: for a dynamic model they give no engine that changes the number of parameters, so it never changes.
* `C105_counterexample_engine_names`: An unknown name among the engines is a ValueError, but the sampler does not keep the engines that it had: it is left with the ones before the unknown name.
* `C105_counterexample_evidence`: The problem "evidence" is in the list of names, but it cannot be made by name: always a TypeError.
* `C105_counterexample_evidence_copy`: Nor can an EvidenceProblem be copied by its constructor, as other problems are: `copy=` alone is an AttributeError.
* `C105_counterexample_limits`: Limits are dropped silently with a distribution object.
* `C105_counterexample_lists`: An array_like as accuracy that is a list: a TypeError for a classic problem; for several outputs a list or a number is an AttributeError, and so are weights in a list.
* `C105_counterexample_ndata`: Once it was asked for, the number of data stays: with new data in the problem, as `setProblem` can put there, it is still that of the old ones, and so is the sum of the weights when there are none. The norm of the likelihood and the evidence use it.
* `C105_counterexample_order`: An ordering problem cannot be given to a NestedSampler without a distribution: its own one, "distance", is not known there.
* `C105_counterexample_order_start`: A nested sampler cannot start on a problem of orders: its start engine is not among those it knows. For all other problems there is a start engine.
* `C106_counterexample_brackets`: C106, where it fails: brackets around a chain with more outputs say that there is one, so that the brackets cannot be piped into a model that the chain itself can be piped into.
* `C106_counterexample_difference`: C106, where it fails: the derivative of the difference of two models with more inputs and more outputs always raises; that of their sum does not.
* `C106_counterexample_inputs`: C106, where it fails: the derivative of a product or quotient of two models with more inputs and one output raises for any number of points that is not 1 and not the number of inputs.
* `C106_counterexample_numeric`: C106, where it fails: the numeric derivative of a model with more inputs and more outputs always raises.
* `C106_counterexample_outputs`: C106, where it fails: when a model with one output is added to one with more outputs, which is accepted, the sum raises or, when the number of points happens to equal the number of outputs, contains in row `n` and column `o` the first model in point `o` instead of point `n`.
* `C106_counterexample_points`: C106, where it fails: when the number of points happens to be the number of inputs, the derivative of a product of two models with one output is calculated with the values of the models in the wrong points: in row `n`, column `i` those of point `i`.
* `C106_counterexample_product`: C106, where it fails: the partial derivatives of a product or quotient of two models with more than one output always raise.
* `C106_counterexample_three`: C106, where it fails: in a chain `G | H`, followed by another model, `H` is also evaluated at the inputs of the chain, although the outcome is not used. When that raises, as it does when the numbers of inputs of `G` and `H` differ and `H` minds, the derivatives and the partial derivatives of the chain raise. The result does not.
* `C107_counterexample_dynamic`: In a dynamic model the numbers of parameters differ. A longer array after a shorter one is an exception; one with a single element after a longer one is added to all of its elements.
* `C107_counterexample_errors`: The errors cannot be asked for before the average. Asked for other points, as many as before, they are those at the earlier points.
* `C107_counterexample_evidence`: At the end of a run the evidence is put in the list under a name that is not the one it is read from: the evidence of the list is 0 whatever the sampler has found.
* `C107_counterexample_max_likelihood`: When the list is kept within a maximum size, the sample with the highest likelihood can be removed: it has the least weight of the first and the last. The parameters given are then those of another.
* `C107_counterexample_median`: When less than half of the weight is there, the index is one beyond the list and the parameters of the median are an exception.
* `C107_counterexample_stale`: The standard deviations, the hyperparameters and their standard deviations, the standard deviations of the nuisance parameters, and the indices of median and modus are calculated once: read again after samples have been added or removed, or after normalization, they are what they were. The same holds for the parameters when a prior is circular.
* `C107_counterexample_stdev_hypars`: The standard deviation of the hyperparameters cannot be read from the list, nor from the sampler, before the hyperparameters themselves have been read; `stdevHypar`, which reads them first, refers to itself and exhausts the stack whatever its size.
* `C107_counterexample_unnormalized`: When the weights are not normalized, the average is the mean multiplied by the sum of the weights.
* `C108_counterexample_append`: C108, counterexample: a new walker is lost when the explorer appends walkers and gets more than one to explore. Both threads take the same length of the list, so the second overwrites the walker of the first. Without threads both are there. The PhantomSampler, which appends, gives one walker at a time; it is safe (C108_single) as long as it does so.
* `C108_counterexample_boost`: C108, counterexample: the boost of the best walker that the user has asked for does not reach the threads: the engines of a thread are copies, and a copy starts without.
* `C108_counterexample_calls`: C108, counterexample: with threads the number of calls of an engine is not counted; in its place come the successes, rejects and failures together. Here one call which was rejected twice before it succeeded counts for three.
* `C108_counterexample_errors`: C108, counterexample: after one failure all later calls raise, also when none of their threads fails: the list of errors is never emptied (it belongs to the module, so that this holds for other samplers too).
* `C108_counterexample_lost`: C108, counterexample: a phantom is lost. Both threads take the list of phantoms before either of them has put its new list in place; the phantom of the first is overwritten. Without threads it is kept (C108_in_turn).
* `C108_counterexample_seed`: C108, counterexample: the result of a run is not settled by the seed. All threads draw from the one generator of the engines (their own generator only sets the order of the engines), so the schedule decides which thread gets which number.
* `C109_counterexample_copymode`: C109, counterexample: once `copymode` has been 1, copies are made from the phantoms, whatever is assigned to it later.
* `C109_counterexample_counted`: C109, counterexample: a boost that found nothing better is counted as a success.
* `C109_counterexample_empty`: C109, counterexample: the boost raises when the list of phantoms is empty, as it is when none of them was above the last level.
* `C109_counterexample_fitter`: C109, counterexample: a fitter that is given as `bestBoost` is never used: the name for which the fitter would be kept is `bestUpdate`. Whatever fitter is asked for, and whatever is assigned to `bestBoost` afterwards, it is Levenberg-Marquardt.
* `C109_counterexample_hangs`: C109, counterexample: when no phantom is above the level, as when all walkers have the same likelihood, the sampler hangs, whatever numbers are drawn. (Copies from the ensemble are always made.)
* `C109_counterexample_kept`: C109, counterexample: parameters that are kept at a value are fitted too, and change. Here the second parameter is not among those to be fitted.
* `C109_counterexample_no_hyper`: C109, counterexample: without hyperparameters (Poisson, Bernoulli) the fitter gets an empty list of start values. A fitter that needs as many as there are parameters fails, and that is ignored, so that no walker is ever boosted.
* `C109_counterexample_parent`: C109, counterexample: the parent that a copy remembers is a number in the list of phantoms (for dynamic models even in one of several lists); it is not the walker of the ensemble with that number.
* `C109_counterexample_prior`: C109, counterexample: the boost does not look at the priors: the better place that the fitter finds is taken, wherever it is. For every set of allowed parameters that does not contain the optimum of the fitter, the walker ends outside.
* `C109_counterexample_two_hyper`: C109, counterexample: with two hyperparameters (the exponential distribution) the list that is tried is one too short: the first of the two is left out.
* `C110_counterexample_bracket`: C110 does not hold for the units of a model inside another one, as in brackets or in a `CombiModel`: the units of the model itself are not handed to the one inside.
* `C110_counterexample_fixed`: C110 does not hold for a model of which a parameter is fixed that is not the last one: the others get the units of the parameters before them. Here it is the amplitude of a Gaussian.
* `C110_counterexample_free_shape`: C110 does not hold for a free shape at its borders: the range of the shape is a number of pixels, and it is compared with x. After a change of units the model may refuse an x that it accepted before.
* `C110_counterexample_kernel2d`: C110 does not hold for a round kernel of two inputs with different units.
* `C110_counterexample_poly_surface`: C110 does not hold for a polynomial in two inputs: the powers of the two inputs are the wrong way round in the unit, so it is wrong when the inputs have different units.
* `C110_counterexample_power`: C110 does not hold for a power of x: the unit does not have the power of x in it.
* `C110_counterexample_power_law`: C110 does not hold for a power law, of which the exponent is a parameter: the unit of the amplitude cannot be the one of y.
* `C110_counterexample_product`: C110 does not hold for a product of models with a unit for y: the models in it do not know of that unit, and from the second on it is divided out. So the constants of this product have the units 1 and 1 / y.
* `C110_counterexample_pseudo_voigt`: C110 does not hold for the pseudo-Voigt profile: its last parameter, the share of the Lorentzian, is a number between 0 and 1, and is said to have the unit of x.
* `C110_counterexample_radial_velocity`: C110 does not hold for the radial velocity: the first parameter is the eccentricity, a pure number, and is said to be a frequency. `ecc` is the method that solves Kepler's equation.
* `C110_counterexample_set_units`: C110 does not hold when the units are set on a compound model: only the first model gets them.
* `C110_counterexample_sine_spline_drift`: C110 does not hold for the sine with a drift and splines: its units are those of a model without the polynomial that comes first.
* `C110_counterexample_softmax_offset`: C110 does not hold for a layer of a neural net with offsets: the first offset is said to have a unit, because of `>` where `>=` is meant.
* `C110_counterexample_stellar_orbit`: C110 does not hold for the orbit of a star: the third parameter is a period, and is said to be a frequency.
* `C110_counterexample_surface_order`: C110 does not hold for splines in two inputs of another order than 3: the order is taken to be 3 in the unit. Here it is 4, and both inputs have the same unit.
* `C110_counterexample_surface_splines`: C110 does not hold for splines in two inputs: the unit of a parameter has the powers of the two inputs the wrong way round. So it is wrong when the inputs have different units.
* `C111_counterexample_constructor`: C111 fails: with parameters kept both by the constructor and in the call, those of the constructor are fitted, but their limits are not looked at.
* `C111_counterexample_kept`: C111 fails: a parameter that is to be kept in this call does not get the value that was asked for, when that is outside the limits. A parameter that is kept by the constructor does, see `C111_constructor`.
* `C111_counterexample_minimum`: C111 fails: there can be better parameters inside the limits. When two parameters are beyond their limits, both are fixed, although the second one comes inside its limits when the first one is fixed.
* `C111_counterexample_outside`: C111 fails: the parameters that are returned can be outside the limits. After the second fit the limits are not looked at again.
* `C111_counterexample_overridden`: C111 fails: a value to be kept in the call overrides the one of the constructor in the fits, but the model ends with the value of the constructor, and with the others as fitted to the value of the call.
* `C111_counterexample_returned`: C111 fails: when parameters are kept by the constructor, all parameters are returned if the fit is inside the limits, but only the fitted ones if it is not.
* `C112_counterexample_bernoulli`: C112 fails for the Bernoulli distribution: the alternative gives an element for every parameter, also for those that are not in the list; the sign is wrong too, see `C28_counterexample_bernoulli`.
* `C112_counterexample_exponential`: C112 fails for the Exponential distribution when the power is fixed and the scale is not: then the element for the scale is written over the one for the last parameter.
* `C112_counterexample_laplace`: C112 fails for the Laplace distribution with its scale: the alternative is not divided by the scale.
* `C113_counterexample_attribute`: The names that polynomials (and others) make are not those under which the values can be read: `polycoeff_1` is an AttributeError, `parameter_1` is the value.
* `C113_counterexample_brackets`: A model between brackets has no list of names. When a parameter is replaced by it there are parameters without a name: asking for it is an IndexError.
* `C113_counterexample_negative`: Negative numbers do not count from the end of the chain, but from the end of the first model.
* `C113_counterexample_polynomial`: A polynomial of degree 2 with its constant fixed at 1: its first parameter, which is the coefficient of x, is called that of the constant, "polycoeff_0", because the class makes its names without looking at what is fixed.
* `C113_counterexample_repeat`: A repeating model made in the default way, without parameters that are the same, has no names: asking for one is a TypeError.
* `C113_counterexample_same`: Two gaussians in a chain have the same names; the values of the second cannot be read under them. And when a parameter is replaced by a gaussian, the second "amplitude" cannot be read.
* `C114_counterexample_basic`: Basic splines of the fourth order or higher with the first parameter fixed have no copy: the order is not passed on to the constructor, so that it takes too few parameters.
* `C114_counterexample_border`: The copy of a periodic splines model with variable knots is not periodic any more, while its basis is.
* `C114_counterexample_combi`: The copy of a combined model has the connections of the original. The parameters are those with which the model was made, not the present ones (`p`), and what came behind it in a chain (`rest`) is gone.
* `C114_counterexample_combi_chain`: A combined model of a chain can not be copied: the copy takes the first model of the chain only.
* `C114_counterexample_eps`: The copy of a B-splines model has `eps = 0`, whatever `eps` the model has.
* `C114_counterexample_order`: A harmonic dynamic model of order 0 (allowed when `minOrder=0`, and reached by shrinking) has no copy: the constructor takes 1 for the minimum.
* `C114_counterexample_priors`: For repeating models this is not so: the copy has the same model inside, and a prior that is set on the copy is a prior of the original.
* `C114_counterexample_static`: A repeating model that is not dynamic (`dynamic=False`, or `minComp` equal to `maxComp`) can not be copied: the copy asks for its grow prior, which it does not have.
* `C114_counterexample_user`: A model with a function of the user and a fixed parameter has no copy, unless the fixed ones are the last: the constructor is called with the number of free parameters. Here the first one is fixed.
* `C115_counterexample_caller`: Asking for the result changes the array of the caller, which is that of the model itself when no parameters are given: whenever a parameter that must be positive is negative.
* `C115_counterexample_correct`: A model like a gaussian that has one of its three parameters fixed: `correctParameters` raises.
* `C115_counterexample_correct_other`: A model like an etalon with drift, where the third of five parameters must be positive, with the first one fixed: `correctParameters` takes the sign from the fourth and leaves that of the third.
* `C115_counterexample_model`: When a parameter that must not be zero, like the width of a gaussian, is replaced by a model, the result can be computed for one data point only: for more the question whether an array is zero raises.
* `C115_counterexample_partial`: The partial to a parameter that must be positive, at a negative value of it, is minus the derivative of the result. At a positive value it is the derivative.
* `C116_counterexample_bools`: A bool is accepted as a number, a list of bools is not.
* `C116_counterexample_constant`: The value of a constant model can be set to any number of numbers, whatever the number of parameters of the model within.
* `C116_counterexample_degree`: The degree of a polynomial can be set without a change in the number of parameters.
* `C116_counterexample_float32`: A float of numpy in less than 64 bits is refused, alone or in a list of such, but in a list with a whole number it is accepted.
* `C116_counterexample_football`: Assigning a float, like 3.0, is refused with an exception, but the functions have been changed by then: they are those of complexity 3 and the complexity is what it was.
* `C116_counterexample_shared`: An array of floats is not copied: the model keeps the array of the caller.
* `C116_counterexample_square`: A square of numbers is accepted for the parameters: only the number of rows is checked.
* `C116_counterexample_strings`: A list of strings may have numbers in it: for numpy it is an array of strings. The list is kept as it is.
* `C116_counterexample_table`: With `None` for the table a constant model has neither a table nor a model.
* `C117_counterexample_integers`: C117 fails for integers: the averages are cut off.
* `C117_counterexample_last`: C117 fails at the last site: all functions are zero there, for all sites and all orders, as `spcol` takes the ranges of the functions without their end. So the last row of the matrix is zero, and no spline has another value than zero there: interpolation is impossible.
* `C117_counterexample_one`: C117 fails for one site: it raises, where the documentation promises proper knots.
* `C117_counterexample_order`: C117 fails for order 0, which is documented: it always raises.
* `C117_counterexample_repeated`: C117 fails for repeated sites: too many equal sites are refused anywhere but at the end, where they are accepted. With the knots that are returned the last function is zero everywhere.
* `C118_counterexample_parent`: C118 fails for the parent of a sample, which is documented as -1 for those of the first ensemble and as the id of the walker it was copied from for the others: it is always the id of the walker itself, never -1.
* `C118_counterexample_rank`: C118 fails for the rank when more than one walker is discarded: the first new walker is not in order, here it hides that the second new walker is the second of three.
* `C118_counterexample_start`: C118 fails for the start of samples when the engines store new walkers, as all engines except the Galilean do: all samples say that they started at iteration 0, so that frame `i` of a movie shows all later samples, more than the ensemble.
* `C119_counterexample_harmonic`: C119 is not only a matter of numbers: the first harmonic has two parameters, yet data at two phases do not determine them when these are half a period apart.
* `C119_counterexample_kept`: C119 with kept parameters is not a matter of numbers either: of a parabola without slope the two other parameters are not determined by data at two different x.
* `C120_counterexample_gibbs`: **The Gibbs engine keeps the walkers from the edges.** With a likelihood that is above the limit everywhere, start from a walker that is anywhere in the unit interval with equal probability. When the range of the walkers is less than 10/11 of the interval, then after one move the walker is near the edge, in some interval `(0,ε)`, with a smaller probability than `ε`.
* `C120_counterexample_random`: **The random engine leaves no walker outside its box.** When a part of the region where the likelihood is at least the limit is outside the box in which the trials are drawn, then after one move fewer walkers are in that part: the walkers are no longer spread evenly over the region.
* `C120_counterexample_step`: **The step engine keeps the walkers from the edges.** The same for the step engine, with three walkers or more, whatever their range is.
* `C121_counterexample_ties`: **Ties break it.** When all likelihoods are the same, nothing of the prior is above the worst of them: the volume that is left is zero, and yet the sampler takes it to shrink by 1/N, as always.
* `C122_counterexample_loop`: **The loop engine is not even.** Where every order of the corners of a square is good enough, the tour around the square gets 48 walkers of the 32 that started there. The other engines keep the even spread there (`C122_reverse_flat_partial`, `C122_move_flat_partial`), so that a mix with them does not restore it, as the documentation of NestedSolver has it.
* `C122_counterexample_move`: **The retries of the move engine are not even**: from an even spread over the orders of at most 10, the order 0 1 2 3 gets 3264 instead of 3600.
* `C122_counterexample_near`: **The near engine is not even.** Four cities on a line: the tour 0 1 2 3 gets 40 of the 32 that started there.
* `C122_counterexample_reverse`: **The retries of the reverse engine are not even.** It retries with a shorter stretch when the first one is refused, and whether it is refused depends on where the walker is.
* `C122_counterexample_switch`: **Trying again until it succeeds is not even.** `OrderEngine.execute` repeats a try that failed. With two tries of the switch engine, more walkers end in the order 0 1 2 than started there: 44 against 36. One switch leads from each of the other two good orders to this one, but not from the one to the other.
* `C124_counterexample_setLimits`: Limits that are set after the construction: random numbers are mapped between them, but the density that the prior gives is still that without limits. It does not add up to one, so the mapped numbers do not have it.
* `C125_counterexample_accuracy`: With an accuracy for each of the points the likelihood after a fit is not the same: the accuracy of the point with weight 2 is counted once.
* `C125_counterexample_cauchy`: So a point with weight 2 is one point for the Cauchy distribution, not two.
* `C125_counterexample_ignored`: The Cauchy, Poisson and Bernoulli distributions take no notice of weights.
* `C125_counterexample_mixed`: A mixture of two Gauss distributions: half of the points have scale 1, the others scale 2. A point with weight 2 has not the likelihood of two points: either both belong to the first distribution or both to the second.
* `C125_counterexample_qr`: The QR fitter counts a point with weight 2 four times: what it makes of `weighted` is not the least squares solution for `twice`.
* `C125_counterexample_uniform`: The uniform distribution: a point with weight 0, which should not count, makes the likelihood not finite when it is too far from the model (it is not a number in numpy); it also decides the scale.
* `C126_counterexample_laplace`: For the Laplace distribution it is not so: with accuracies 0 is a better value for the constant than 3, with weights it is the other way round.
* `C126_counterexample_scale`: It is not so that only the evidence differs. Accuracies do not change the number of observations, weights do, so the noise scale differs, and with it all standard deviations.
* `C129_counterexample_hypars`: With nuisance parameters, as for errors in x and y, the hyperparameters of a walker are not those of its sample: all targets come with them.
* `C12_counterexample`: For a walker on the edge of the unit box the edge is not seen as an end of the chord: the engine tries (and here accepts) a place outside the unit box.
* `C130_counterexample_combi`: Two Gausses with the same center: the last parameter is the width of the second one. It has the prior of the center.
* `C130_counterexample_combi_chain`: A model that follows the combi model in a chain is never asked for its priors: its first parameter has that of a tied width.
* `C130_counterexample_harmonic`: A prior given to the third parameter is accepted and is never used, and all at once the cosines of higher harmonics get the prior of the sines.
* `C130_counterexample_repeating_all`: All at once, in all components but the first: every parameter has the prior of the last parameter of the model.
* `C130_counterexample_repeating_chain`: No prior can be given through the chain to a model that follows a repeating model.
* `C130_counterexample_repeating_later`: A repeating model that is made before priors are given has them one at a time, but not all at once: the attribute `priors` stays `None`.
* `C131_counterexample_relative`: The documentation: "The weights are relative weights unless fixedScale is set." That is not so: with all weights multiplied by the same number the covariance matrix of the parameters, and with it all standard deviations, are different ones.
* `C132_counterexample_dynamic`: **The tables of a dynamic model are not zero-padded**, as their documentation says (`SampleList.py` 404-406 and 426-428, `WalkerList.py` 260-262): whenever two samples, or two walkers, have different numbers of parameters there is no table and no column, whichever is asked for.
* `C133_counterexample_compound`: **A compound model can not be repeated**: the repeating model of `l + r` has `ncomp` times the parameters of both, but in each component the second model is called without any parameters and the first one with parameters that are meant for others. (Most models raise an IndexError without parameters; nothing is said here about what `r` does.) With one component of a line plus something, or two, none of the parameters of `r` has an effect.
* `C134_counterexample_bernoulli`: A model that gives the probability that a datum is True (1) is penalised for every datum that is True: the documentation of BernoulliErrorDistribution says logL = log( x ) if the datum is True, but log( x ) is what a datum of 0 contributes, and a datum of 1 contributes log( 1 - x ).
* `C138_counterexample_boolean`: C138 is false of booleans: a leaf that is split on an axis of booleans with a random number of 1 / 2 or more separates nothing: all points, true or false, go to the right. With a smaller random number the true ones go to the left and the false ones to the right.
* `C138_counterexample_check`: C138 is false of a variation that empties the mask: the tree no longer passes its own consistency check.
* `C138_counterexample_empty`: C138 is false of the last range of random numbers, that of length `2 ^ -ncat` below 1: then no point goes to the left and the left leaf is empty.
* `C140_counterexample_all_slow`: C140, where it fails: when all engines are slow there are iterations without engines. The exploration of a walker then raises.
* `C141_counterexample_negative`: C141, where it fails: a negative integer becomes one higher.
* `C144_counterexample_no_prior`: A hyperparameter without a prior does not come back: it becomes zero.
* `C144_counterexample_short`: When there are less values than parameters and hyperparameters, the values are given to the last hyperparameters: the second parameter of this array goes to unit space with the prior of the second hyperparameter.
* `C145_counterexample_bernoulli`: The scale with a Bernoulli distribution is calculated at no parameters at all, whatever parameters are given.
* `C145_counterexample_perfect`: With a perfect parameter the residual is 0 and the scale is 1.
* `C146_counterexample_one`: With one parameter there is no other place: both engines run for ever, whatever is drawn.
* `C147_counterexample_none`: With a second distribution that has none, as for counts or categories, every likelihood raises an exception.
* `C149_counterexample_edge`: At a legal point closer than `deltaP` to a limit `numPartialLog` is not the slope: it tests the point itself but not the two places where it takes the logarithm. Close to the high limit it is minus infinity, close to the low limit plus infinity, and nan when the prior is narrower than the step, while the slope itself (`partialLog`) is finite.
* `C14_counterexample_raise`: A call of `setLimits` that raises an exception changes the limits nevertheless.
* `C14_counterexample_scale`: After a change of the scale (an assignment to the attribute) the limits no longer hold: with scale 2 the Laplace prior with limits -1 and 1 maps 1 to 2.
* `C14_counterexample_unset`: After `unsetLimits` the maps still are those with limits: 5 is mapped outside of the unit range.
* `C14_counterexample_zero`: The value at the unit value 0 may be out of the limits when the lower limit is infinite: the Laplace prior with -50 as highest value maps 0 to -40.
* `C151_counterexample_index`: A negative index, as it is used for parameters elsewhere (-1 is the last one), or an index beyond the last parameter is accepted and the model is mixed from then on, but all parameters are still reported as non-linear.
* `C15_counterexample_circular`: The domain to unit map of a circular prior is three times less steep than its density.
* `C15_counterexample_setLimits`: When limits are set after the construction, the density is not renewed: of a Laplace prior that is limited to [-1,1] afterwards the density at 0 is that of the unlimited one, while the map from domain to unit is steeper.
* `C16_counterexample`: With the other priors numbers outside the base period are not folded: in a Cauchy prior of period 2 about 0, the number 2 is taken to -1/2 and not to 0.
* `C16_counterexample_seam`: With a center that is not in the middle of the limits the density jumps at the seam: a circular Laplace prior between 0 and 2 with its center at 1/2 is less dense at 2 than at 0, which is the same point of the circle.
* `C16_counterexample_setLimits`: A circular prior whose limits are set again later is spoiled: after the limits [0,1] of a circular uniform prior are changed into [0,2], no unit value gives 3/2 (or anything else outside [1/3,1)).
* `C18_counterexample`: Asking the parameter derivatives or the x derivative of a model that was just piped into a compound fails, whatever the models and the parameters.
* `C18_counterexample_fixed`: With a model with fixed parameters behind a pipe and before another model, the parameter derivatives fail.
* `C20_counterexample_repeat`: C20, where one may be surprised: parameters after it in the same base model, for which nothing has been set, get the new prior too, as the last prior is used for all further parameters.
* `C21_counterexample_bracket`: C21, where it fails: a copy of a chain that starts with a `BracketModel` has lost the parameters of all models but the first; so the model made by an operator has too few of them, and a wrong number of parameters.
* `C21_counterexample_self`: C21, where it fails: `model += model` never ends.
* `C22_counterexample_kernel2d`: A model as fixed value in a 2-d kernel: the number of parameters of the model that is handed to the base class is less than the number of parameters it has, so that it can not be evaluated.
* `C24_counterexample`: When a parameter of the removed component was kept, a fitted parameter of a model behind it is lost from the list: of 5 parameters 0, 1 and 4 are fitted, the component {2} is removed, the old parameter 4 is now number 3 but it is not in the list.
* `C24_counterexample_raises`: And when there is nothing behind it an IndexError is raised.
* `C26_counterexample`: When a parameter is tied both ways the partial is wrong: for one parameter in two copies, tied with offsets 0 and factors 1 and 3, the full parameters are `p` and `3 p`; where the partials of the chain are 1 and 1 the derivative is 4, but 5 is returned.
* `C27_counterexample_accuracy`: With accuracies the likelihood of Laplace does not depend on the scale, but a gradient is given all the same.
* `C27_counterexample_mixed_none`: With a second distribution that has no hyperparameters, like that of Poisson, every likelihood raises.
* `C27_counterexample_mixed_second`: With two hyperparameters in the second distribution the third from the end is the scale of the second. When that one is fitted, and nothing further from the end, the code returns the derivative to the scale of the first. Here a Gauss of scale 1 is mixed with an exponential of scale 2 and power 1; the residual is 1, so the Gauss is stationary in its scale and 0 is returned, but the likelihood is not stationary.
* `C28_counterexample_bernoulli`: The alternative for the gradient in the Bernoulli distribution has the wrong sign.
* `C28_counterexample_laplace`: The alternative for the gradient to the scale lacks a division by the scale.
* `C28_counterexample_uniform`: With cyclic data the uniform distribution forgets the correction: a point at distance 1 has likelihood 0 while the alternative formula finds 1/4.
* `C30_counterexample_normalize`: With both kept parameters and an extra measurement the minimum is not found: the extra measurement is not corrected for the kept parameters.
* `C31_counterexample`: Weights 1 and 2 on two measurements of a constant: the QR fitter does not find the minimum.
* `C31_counterexample_stale`: The decomposition of an earlier fit is used in a later one without weights, although it was made with the weights of the earlier one: the minimum is not found.
* `C32_counterexample_first`: The fit that the theorems speak about exists. And the first step may be accepted although it is worse than where the fit started, as chi squared is increased by one before the first step: here the fit converges at a worse place.
* `C32_counterexample_keep`: When the fit is started at given parameters, then a kept parameter does not get its value: the one of the starting parameters is used.
* `C33_counterexample`: Of three parameters one is kept: two are fitted, but the number reported is one.
* `C33_counterexample_negative`: A negative number is accepted as key, and its value is given to the parameter counted from the end, but then that parameter is fitted nevertheless.
* `C33_counterexample_number`: With parameters kept in the call, the number of fitted parameters is set to the number of kept ones.
* `C34_counterexample_etalon_drift`: C34, where it fails: the etalon with drift has no derivative to x. It would not be the right one either: what is put in the list has the frequency as a factor too many.
* `C34_counterexample_lorentz`: C34, where it fails: for negative widths the partial of the lorentzian to its width has the wrong sign.
* `C34_counterexample_pseudo_voigt`: C34, where it fails: with any other parameter fixed, the pseudo voigt has no partials, or partials with a column that was never written.
* `C34_counterexample_sine_spline`: C34: the derivative to x of the sine with splines: it raises for every x and all parameters, as the parameters of both splines are offered to one of them.
* `C34_counterexample_sine_spline_drift`: C34: the derivative to x of the drifting sine with splines raises for every x and all parameters.
* `C36_counterexample`: C36, where it fails: for other orders the derivative is wrong beyond the first inner knot, as the factor is always 3 there. A parabola with a knot in 1: the derivative in 2 should be 2 and is 3.
* `C38_counterexample_fortran`: With order F the list of positions does not belong to the flattened image: in an image of 2 by 3 the data are read in Fortran order while the positions follow the order in memory.
* `C40_counterexample_far`: The condition is needed: two periods apart is folded to one period apart only.
* `C41_counterexample`: The answer is not recomputed when a walker is stored between two requests for the same level: the box then misses the new walker.
* `C41_counterexample_first`: A first request for the level minus infinity has no answer at all.
* `C42_counterexample`: With a fixed hyperparameter, keeping a model parameter raises an IndexError.
* `C43_counterexample`: C43, where it fails: a robust fit that may not iterate raises an error, although the plain fit went well.
* `C44_counterexample_negative`: Not true of the code: a negative number, that has no factorial, is not refused; -1 gives log 99!.
* `C44_counterexample_single`: Not true of the code: a list of one number raises, where all other lists are accepted.
* `C45_counterexample_prior`: After limits are set, the copy of a prior has another density than the prior itself: the copy is renormalised, the original is not.
* `C47_counterexample`: The full claim is false of the code: after sorting, the switch engine asked to explore walker 0 reports success, leaves walker 0 as it was and overwrites walker 1.
* `C48_counterexample_false_alarm`: Two stretches that do not cross are taken for crossing.
* `C48_counterexample_missed`: Two stretches that really cross are not recognised by the loop engine.
* `C49_counterexample`: With two discarded walkers per iteration some prior volume is given to nobody: after the first iteration the volumes given out and the remaining volume add up to less than one.
* `C50_counterexample`: The last update books the remaining walkers with the likelihood floor of the last iteration instead of their own likelihood, so the information reported at the end is too low as soon as one of them is above that floor.
* `C51_counterexample`: A second call of `sample` does not start with an empty list of samples: the samples of the first call stay in front and take part in the normalisation of the weights, while the evidence only counts the new ones.
* `C52_counterexample`: The last sample of a run, which the code takes for the one with the maximum likelihood, need not have the highest likelihood: the remaining walkers are stored unsorted.
* `C53_counterexample`: When the weights do not rise and fall once, a sample is removed that has more weight than one that is kept.
* `C55_counterexample`: C55 fails for the tophats with one convolution or more: for the tophat with one convolution the result at one half is one half, but the one for its square is three quarters. Three kernels have no such method.
* `C56_counterexample_galilean`: C56: for the Galilean engine it is false with more than 16 parameters. There are 25 of them, with uniform priors between 0 and 1, all at 9/10; the likelihood is smooth and the gradient is the true one (`wideGrad_spec`). The first trial, all parameters at 0.65, is below the level. The mirrored velocity is 5/4 in the first direction; from 0.9 that leads to 2.15, which is mirrored on the upper edge only, to -0.15. The engine stores a walker there: it has a parameter that the prior can not have.
* `C58_counterexample_all_brackets`: C58, where it fails: with brackets in the chain converting all parameters at once raises, though each of them can be converted.
* `C58_counterexample_all_empty`: C58, where it fails: a base model without parameters (all of them fixed), with or without priors, comes in between and the parameters after it get the wrong prior, or an exception.
* `C58_counterexample_brackets`: C58, where it fails: a chain with (non-empty) brackets in it never has limits, whatever has been set.
* `C58_counterexample_fitted_none`: C58, where it fails: all fitted parameters have limits, but the model says no, as a model in the chain of which nothing is fitted has no priors.
* `C58_counterexample_fitted_order`: C58, where it fails: when the numbers of the fitted parameters are not ascending, those after one that belongs to a later model are not looked at: parameter 0 has no limits.
* `C58_counterexample_fitted_repeat`: C58, where it fails: with fewer priors than parameters the last one holds for the rest, but it is not looked at: the prior of the fitted parameter 1 has no limits.
* `C58_counterexample_onesided`: C58, where it fails: giving lower limits only (which the documentation allows) raises, for every model.
* `C58_counterexample_priors`: C58, where it fails: a chain of which only the first model has priors says that it has priors.
* `C59_counterexample_parlist`: C59 is false with a list of parameters (as used when parameters are fixed): `basePartial` takes the numbers of the parameters for numbers of points. Here the derivative to parameter 1 at the second point, which is 1, is not found.
* `C60_counterexample`: C60 is false when the tree has a split: the cut is relative to the lowest and highest value in the table, so one more row in the table can change the result at all others. Here the point x = 1 gets the first parameter in the table (0, 1) and the second in the table (0, 1, 10).
* `C61_counterexample_chain`: C61 is false when the tree is part of a compound model: `grow` compares the number of leaves with the number of parameters of the whole chain. With one parameter elsewhere the tree gets a leaf without a parameter; with more an error is raised.
* `C61_counterexample_shrink`: C61 is false for the death of a right leaf next to a branch: the parameters of other leaves are deleted. Here the point is in the last leaf, outside the branch that is removed; its value was 4 and becomes 2.
* `C61_counterexample_vary`: Varying from a dimension of numbers to one of categories leaves the old split in place: `check` finds the tree not in order, and the new mask is not used.
* `C62_counterexample_constructor`: C62 is false of a model that is constructed from a code: the tree is right, but the model has one parameter only, so that it cannot be evaluated with its own parameters.
* `C63_counterexample_flat`: **The full C63 fails for a flat start** too: value 1/2 is returned, 0 was the best.
* `C63_counterexample_tie`: **The full C63 fails when values are equal**: the first simplex is not flat and there is no annealing, but the point that is returned has value 1/2 although the best value found is 0. In the first shrink the best point was remembered as a view of a corner of the simplex (line 568); in the second shrink, around another corner with the same value, that corner moved.
* `C64_counterexample`: **The full C64 fails**: the minimum is sought between the limits 0 and 5, from `[1,3]`. The function varies less than the tolerance over the first simplex, so that is expanded (line 469-472), and `inflateSimplex` compares a corner with itself (line 555-558). The function gets computed outside the limits and the point that is returned, `[7/2,11]`, is outside too.
* `C65_counterexample_degenerate`: **C65: a degenerate start that is accepted**: steps `[0,1]` make two equal corners.
* `C65_counterexample_flat`: **C65 does not hold for a flat start**: a function that is the same everywhere makes `minimize` blow up the simplex for ever, whatever the number of iterations that is allowed.
* `C65_counterexample_start`: **C65: a proper start that is refused.** `checkSimplex` compares a corner with element `i` of corner 0, instead of comparing the corners. For the start `[1,2]` with steps of 1, which makes the corners `[2,2]`, `[1,3]`, `[1,2]`, the constructor raises ValueError.
* `C67_counterexample_copies`: Each copy squares the variances of the problem it is copied from (and of all other copies), while the determinant stays: after `n` copies the variance in y is the accuracy to the power `2 ^ (n + 1)`.
* `C67_counterexample_scalar`: With a single number as accuracy (allowed in 214-216) the variance in y and in x are one object, which is squared twice: the fourth power.
* `C67_counterexample_table`: The table of accuracies given by the user is overwritten: a second problem made with it uses the fourth power.
* `C68_counterexample`: The likelihood of a data point in the plane is not normalised.
* `C70_counterexample_scale`: The noise scale found from the residuals, without weights, is not the root mean square of the residuals but `√ndout` times it: the sum is divided by the number of data points, not by the number of residuals. Here all four residuals are 1, and the scale is √2.
* `C71_counterexample_chain`: C71 fails for a sum of models: the ranges are those of the priors of the first model only. For every fit of the sum of two models with one parameter each and with ranges `a` and `b`, the evidence is that for the range `a` twice: it is wrong unless the two are equal.
* `C71_counterexample_keep`: Of a parameter that is kept the prior range should not matter. It does when it is kept in the call of `fit`: with a range that is `c` times as wide the evidence is lowered by the logarithm of `c`.
* `C71_counterexample_weights`: One accuracy for all data, or the same one given for each: that should be the same. With weights it is not: then the evidence differs by the sum of the weights minus the number of data, times the logarithm of the accuracy.
* `C72_counterexample_limits`: C72 fails: with limits on the noise scale the evidence is not the logarithm of the average, as it depends on the limits in another way: the logarithmic range is subtracted once as it is and once as logarithm (`BaseFitter.py` 912, 921). For the same fit and the same priors, any two ranges of the scale of different ratio give evidences of which at least one is wrong: the average is inversely proportional to the range, so that `exp v * range` should be the same.
* `C72_counterexample_models`: C72 fails for the comparison of models too: the factor by which the evidence is off depends on the number of degrees of freedom. With 4 degrees of freedom against 2, the ratio of the two evidences is more than twice too large. (`BaseFitter.py` 912 has the number of degrees of freedom in the numerator, where the Gaussian approximation has it in the denominator.)
* `C73_counterexample_keep`: And the kept parameter gets a standard deviation.
* `C73_counterexample_weights`: When the weights are not on average 1, the scale and the covariances are wrong by the factor `(N - K) / (W - K)`, with `W` the sum of the weights.
* `C74_counterexample`: When the offset of a line was kept in the call of `fit`, the evidence is another one after the standard deviations have been asked for: that replaces the hessian by that of all parameters.
* `C77_counterexample_fixed`: C77: for a model with fixed parameters, `basePartial` is called with the list of the remaining parameters. It returns a column for each of all parameters nevertheless.
* `C78_counterexample_name`: C78: the name of a parameter shows the indices in the wrong order: the names run fastest in the first dimension, the parameters in the last one. Here the second parameter goes with the first column in x and the second one in y; it is called `param_1_0`.
* `C79_counterexample_last`: C79: in the last pixel of the default model the result is 0, whatever the parameters are: the pixels are shifted by one, as the center is added where it should be subtracted.
* `C80_counterexample_end`: C80: at the last knot the derivative to x is 0, whatever the parameters are: of the splines of one order less the last interval is half open, and the attribute that should repair this is 0.
* `C80_counterexample_single`: C80: with one parameter, two knots and order 0, the matrix is transposed: for two points there is one result.
* `C82_counterexample_cauchy`: The scale given for the Cauchy distribution is not the best one: for one datum at a distance of 1, it should be 1.
* `C82_counterexample_exponential`: For any other power the scale that is given is not the best one: a factor `power ^ (1 / power)` is missing.
* `C82_counterexample_uniform`: The scale that is given for the uniform distribution has itself a likelihood of zero, for all data.
* `C82_counterexample_units`: When the data are in small or in large units no scale is found for the Cauchy distribution: for one datum at a distance of 1000 or more it raises.
* `C83_counterexample_cauchy`: The Cauchy distribution has no variance; `toSigma` gives the scale all the same.
* `C84_counterexample_half`: So it is never the second derivative itself, unless that is zero.
* `C84_counterexample_weights`: With weights the hessian of the Gauss distribution is not even minus the second derivative, which is 6 for these data: it holds the squares of the weights.
* `C85_counterexample_accuracy`: With an accuracy the log likelihood of a fit with the Gauss distribution is wrong: for a datum on the model, with accuracy 2 and scale 1, the likelihood is larger than the top of the normal distribution with width 2, let alone a larger one.
* `C85_counterexample_autoscale`: The log likelihood with `autoscale` after a fit with the Laplace distribution is not the largest one: the standard deviation is used as scale.
* `C85_counterexample_question`: After a fit with the exponential distribution, asking for the scale changes the log likelihood.
* `C85_counterexample_scale`: Without weights the noise scale is too large, by the root of the number of data for the Gauss distribution and by the number of data for the Laplace distribution.
* `C85_counterexample_scale_accuracy`: With one accuracy for all data, and without weights, the noise scale is the root of the sum of the squares of the residuals: neither their mean square, nor measured in units of the accuracy.
* `C86_counterexample_number`: With limits it raises, unless precisely two parameters are fitted.
* `C86_counterexample_two`: With two parameters it takes the low limits for the limits on the first, and the high ones for those on the second: for limits 0, 1 and 4, 6 the best values within the bounds for this function have a first parameter of 3.
* `C87_counterexample_meeus`: C87: the first method has the wrong sign. For an eccentricity of 1/2 and a mean anomaly of π/2 it converges to a value below π/2, while the solution is more than 0.4 larger.
* `C88_counterexample_axis`: C88: the semi major axis and the mass. The attributes take the parameters in another order: they have the eccentricity for the amplitude, the amplitude for the period and the period for the eccentricity. For periods above 1 they raise; for circular orbits both are zero, whatever the amplitude.
* `C90_counterexample_amplitude`: C90, where the code differs from the documentation: the amplitude of a new model is not 1, whatever the kernel; it is 0 for the Huber kernel.
* `C90_counterexample_angle`: The angle is documented as counterclockwise from the x-axis; it is clockwise. A kernel with a long first axis is large in the direction of minus the angle, here at (1, -1) for an angle of π/4, and small at (1, 1).
* `C90_counterexample_centre`: In the centre the code divides by zero, for the circular and elliptic shapes; the derivative exists there for all of these kernels, it is 0.
* `C90_counterexample_kernels`: With a kernel that has no result from the square, the result is undefined; with a convolved tophat it is not the kernel at the distance: 0.75 at a distance where the kernel is 0.5.
* `C91_counterexample_copy`: C91, counterexample: a dynamic harmonic model that may have no harmonic at all, `minOrder=0`, and that has lost them, cannot be copied: the constructor in `copy` is called without `minOrder`, which is 1 by default, and raises a ValueError.
* `C91_counterexample_manual`: C91, counterexample: the example of the manual, `HarmonicDynamicModel( 0, maxOrder=6 )`, raises a ValueError, as the minimum order is 1 by default.
* `C92_counterexample_exponential`: C92, counterexample: the exponential grow prior falls with the number of components. With births and deaths in balance one component is more than twice as probable as none.
* `C92_counterexample_uniform`: C92, counterexample: with the uniform grow prior all numbers of components are meant to be equally probable. For whatever limits, at the lower one a component is always added and the new one is removed with probability `1/(M+1-lo)` only.
* `C93_counterexample_keep`: C93, counterexample: parameters kept in one call of `fit` are said to be kept in that call only. They are kept in the next one, too, as the list of parameters to be fitted is stored in the fitter.
* `C93_counterexample_limits`: C93, counterexample: with a parameter kept in the call, and the limits of the priors of the model, which are arrays for all parameters, the fit is impossible: `curve_fit` gets more limits than parameters.
* `C93_counterexample_weights`: C93, counterexample: a datum with weight zero does take part: it gets the weight 1e-20. For data 0 and 1e20, the latter with weight 0, every fit by `curve_fit` returns 1/(1 + 1e-20) and not 0, where chi squared is zero.
* `C94_counterexample_best`: In every ensemble below 100 for which the sampler runs at all, the best of all walkers can be thrown away without being stored: in this run the likelihoods are `0, 1, ..., N-1`, and after one iteration nothing at `N-1` is left, neither in the ensemble nor among the posterior samples.
* `C94_counterexample_first`: For a model that is not linear the initial exploration at least doubles the list, and the first iteration brings it back to the asked size by throwing out walkers from the top: of the walkers above the floor more are there than are asked for, nothing is added, and the lowest of them, all but `step` of the asked number, always stay. So all that go are better than those.
* `C94_counterexample_small`: With an ensemble times step below 100 no walkers at all are chosen to be discarded, and the sampler stops with an exception: in the first iteration for linear models, in the second one at the latest for others.
* `C95_counterexample_copy`: Copying a distribution with a fixed scale changes the original: afterwards original and copy both have scale 1.
* `C95_counterexample_copy_scale`: A copy of a noise scale has the value of the original, but not its limits: it is not fitted, even when the original is; and limits cannot be set on it.
* `C95_counterexample_fixed`: The argument `fixed` of the constructor always raises an exception: it is looked at before there are hyperparameters.
* `C95_counterexample_keep`: `keepFixed` does not fix: a scale with limits that is told to keep a value is still fitted.
* `C95_counterexample_power`: ... but limits on the power do not make it fitted, although the documentation says so: it stays fixed at its given value, whatever the limits.
* `C95_counterexample_set_limits`: The same for the scale and the power of an exponential distribution raises an exception, unless the power had limits from the start.
* `C95_counterexample_shared`: A copy shares its hyperparameters: setting limits on the copy makes the scale of the original a fitted parameter too.
* `C95_counterexample_zero`: With 0 for the low limit, which is accepted, the noise scale is not fitted: it stays at its value.
* `C96_counterexample_given`: A fitter object as arbiter: it holds the model it was made for. Then the model of the problem, the one that each walker has for itself, does not matter, but for its number of parameters and their limits. Models of different evidence are given the same likelihood.
* `C96_counterexample_nested`: A nested sampler as arbiter, that finds the evidence exactly: the value that comes back is the 10log of the evidence, not the natural one as from the fitters; and it is the evidence for a noise scale of 1, whatever the scale of the distribution. When the evidence is below 1, the likelihood is larger.
* `C96_counterexample_weights`: The weights of the problem do not matter, although the distribution says that it accepts weights. Two points at 0 and 2 have the weights 3 and 1. The "likelihood" is more than twice the evidence, and the parameter is the plain mean 1, although 1/2 has a smaller weighted chi-squared.
* `C97_counterexample_count`: C97, where the code differs from its comment, "Grow the dynamic model a number of times according to growPrior": from the minimum, with at least three more allowed, the model always grows, although the prior gives one part in `M + 1 - lo` to its first interval; and three or more new components are rarer than that one draw of the prior exceeds the number they start from.
* `C97_counterexample_fixed`: C97, where the code fails: a parameter that is not fitted, because it is kept at a value, is 0 in the first walkers, whatever that value.
* `C97_counterexample_retry`: C97, where the code fails: when the first trial fails the dynamic model is taken to be at the head of its chain. Here a fitted parameter of another model comes first; that of the only component is kept. When the second trial adds a component, the kept parameter is fitted and the new one is not.
* `C97_counterexample_scale`: C97, where the code fails: with a noise scale that is fixed (it is the last of `allpars` and it is not fitted), the first walkers are never found, when the likelihood needs a scale that is not 0.
* `C99_counterexample_columns`: C99. With fixed parameters and no exception the columns are wrong: three teams, that of team 0 fixed, so that column 0 is for team 1. The score of team 0 does not depend on it, but the partial says it does.
* `C99_counterexample_fixed`: C99. With fixed parameters the partials cannot be calculated: as soon as the last team plays at home an exception is raised.
* `C99_counterexample_priors`: C99. A football model never asks the models behind it: any parameter of a following model gets a prior of the football model, and so do parameters that do not exist.

### Noticed, not proved

* Kernel2dModel: the default amplitude is documented as 1; it is 2/(pi times the integral of the kernel).
* PolynomialDynamicModel: the grow prior has limits in degrees and is compared to the number of components, which is
  one more.
* RepeatingModel: with `ncomp=0` and `same` the number of parameters is `len(same)`.
* BasicSplinesModel: `border=2` is treated as periodic; for order 1 `normalizeBasis` divides by zero, without
  further use of the quotient.
* BSplinesModel: other knots or another order afterwards leave the number of parameters as it was.
* CombiModel: negative keys are accepted.
* Explorer: `update` is unbound when the loop does not run.
* ModelDistribution: the keywords for a nested arbiter are added to those of the user, also for the next call; a copy
  loses them; too few degrees of freedom and no convergence are not caught.
* QRFitter: the model without parameters gets the weights as parameters; more than one normalize fails.
* LevenbergMarquardt: the hessian stays damped; the caller's start values are changed; chisq of a perfect fit
  raises.
* NestedSolver: StartOrderEngine draws from the global generator of numpy, so the seed does not fix a run; the
  documentation names three different sets of default engines.
* NestedSampler: setting `power` with an Exponential error
  distribution sets an attribute that this distribution does not know.
* Order engines: ShuffleEngine.execute lacks arguments; ReverseEngine returns 1 on a rejected move.
* RandomEngine: boxes do not belong to the fitted indices. GibbsEngine: may loop without end at a boundary.
  ChordEngine: after a chord that is not finite the same velocity is normalised again.
* SineSplineModel and SineSplineDriftModel: the frequency
  multiplies the derivatives of the amplitudes too. Gauss, Lorentz,
  Logistic, PowerLaw, Kernel, Voigt: sized by `npbase`, IndexError when a zero-parameter model replaces a
  parameter.
* ScipyFitter without a method raises, contrary to the documentation; `par0`, `maxiter`, `tolerance` and `verbose`
  are ignored. MaxLikelihoodFitter: `testGradient` raises with an error distribution; the hessian of chi-squared
  takes the fitted parameters for all parameters, when some are kept.
* Kepplers2ndLaw: `eccentricAnomaly0` solves E = M - e sin E; `getMsini` refers to parameters it does not have;
  near the apastron a divisor is capped. RadialVelocityModel: `semimajoraxis` and `getMsini` take the parameters in
  another order than the model has them.
* DecisionTreeModel: documentation and code disagree on which side values below the split go; the caller's list
  of splits is extended in place.
* AnnealingAmoeba: the sum is stale after a replacement; `hasLowLimits` tests the high limits; `makeSimplex`
  changes the caller's start.
* Gauss2dErrorDistribution: `partialLogL_alt` prints its arrays; `logLikelihood_alt` refers to an undefined name
  when there are weights. MultipleOutputProblem: a single number as accuracy is an AttributeError.
* BaseFitter.getLogZ: without fitted parameters and with limits on the noise the logarithm of the range of the scale
  is not subtracted.
