# Formal model of sidetopics: design

The code under study is the python/cython package in `/repo/sidetopics` (topic
models, dataset handling, evaluation, command-line drivers).  The model is
written in Lean 4 under `/verif/lean/Verif`.  `properties.jsonl` lists the
properties, `MANIFEST.json` maps them to theorems.

## 1. Trusted base

* Lean's kernel (4.33.0) and the Mathlib modules imported (each imported
  individually).
* Axioms: every theorem listed in the manifest depends on a subset of
  `propext`, `Classical.choice`, `Quot.sound`.  No axioms are added; no
  `sorry`, `admit`, `native_decide` or `bv_decide`.
* The reading of the Python/Cython source into Lean definitions.  Each
  definition cites the file and lines it models and states its simplifications.
* The following semantics of libraries, modelled rather than verified:
  * numpy/scipy indexing and arithmetic: row/column selection, `hstack`,
    `sum`, `max`, element-wise arithmetic, `where`, `%` on arrays.
  * `numpy.argsort`: any permutation that sorts (ties in any order), unless a
    theorem says otherwise.
  * `numpy.random`: an arbitrary input (a permutation, or a stream of numbers).
    Theorems hold for every such input, so no distributional claim is made.
* Numbers.  Counts and indices are `Nat`/`Int` without overflow.  Floating point
  quantities are exact numbers in an arbitrary ordered field (examples at `ℚ`),
  or reals where `exp`/`log` occur.  Rounding, overflow, `inf` and `nan` are
  therefore outside the model; where numpy would yield `inf`/`nan` instead of
  raising this is said at the definition.
* Exceptions are values of `Except PyErr`; the error class is modelled, the
  message is not.

## 2. Layout

* `Verif/Model/*.lean`: the model, function by function, with citations.
* `Verif/Lemmas/*.lean`: auxiliary lemmas.
* `Verif/Props/*.lean`: independent specifications, the property theorems, and
  next to each an `example` meeting its hypotheses on a concrete input.

Where the code does not satisfy a property, the negation is proved on a concrete
witness, the exact behaviour is proved, and
what remains true is proved under a name ending in `_partial` when it is weaker
than the property.

## 3. Plan per property

* **C01** Each cross-validation split is an exact partition of the documents. Model index computation over Nat with assertions as errors. Prove `train ++ query` is a permutation of `0..n-1` for all n, folds, fold.
* **C02** Over all folds every document is held out, exactly once when the folds tile the corpus. Count occurrences of each document over all folds; prove >=1, and =1 for all iff folds*ceil(n/folds)=n; otherwise exhibit a document with >=2. The code violates the unconditional version.
* **C03** Cross-validation keeps words, features, links, categories and order aligned. Dataset as a record of optional row tables; prove row provenance for every component and permutation of rows, and sum of counts.
* **C04** Document completion conserves every word count. Entries processed with an arbitrary jitter list; prove entrywise sum and shape for all jitters.
* **C05** Document completion yields genuine (non-negative) counts. Violated: witness with jitter. Prove exact range of jitters for which 0<=est<=count.
* **C06** Removing too-short documents during document completion. Violated: message formatting raises TypeError as soon as a document is removed; prove error iff some document is removed.
* **C07** A directed link split is a partition of the links. COO triples with an arbitrary permutation. Prove partition for the algorithm with an integer split point; prove that as written (float slice bound) it raises for every input.
* **C08** A symmetric link split yields two symmetric matrices that add up to the original. As C07 on one triangle; prove symmetry; prove sum is original off-diagonal and doubled on the diagonal; negation witness with self-link.
* **C09** A folded link split removes exactly one slice of links per long row. Model the pointer loop on CSR arrays literally; invariant over rows; spec by per-row slices.
* **C10** A folded link split never leaks a link into both halves. Violated for short rows: exact characterisation (row sums double iff row is short and non-empty).
* **C11** Running all folds of the folded link split holds out each link at most once. From the per-row slice spec: disjoint slices, union is first (links/folds)*folds links.
* **C12** Pruning and shuffling moves all components coherently. Model literally with arbitrary shuffle; prove order is a permutation of the eligible documents and entrywise provenance.
* **C13** Pruning by link count ends in the largest self-sufficient set of documents. Fuel-free recursion on number of rows; prove termination, fixpoint and greatest-fixpoint property, shuffle independence of the set.
* **C14** Re-ordering a dataset either succeeds completely or leaves it unchanged. State-and-error model of in-place reorder; violated when categories are absent: witness and exact characterisation.
* **C15** The document limit restricts the dataset. Violated: prove document count unaffected for all limits; order has min(limit,n) entries.
* **C16** Category files are read back losslessly. Literal loop; round-trip theorem by induction on groups; constructor acceptance iff lengths match.
* **C17** Both ways of dropping columns agree. Model both; prove equality of entry functions for all valid id lists.
* **C18** Undirected and binary link conversion. Entry functions over an ordered field; prove symmetry, support, idempotence.
* **C19** Splitting on a feature separates train and query documents. Model masks; prove disjointness for non-negative features; negation witness for cancelling features.
* **C20** Adding an intercept guarantees a constant feature. Column means; prove for features <= 1; negation witness otherwise.
* **C21** Vocabulary pruning keeps words and dictionary aligned. Model column selection; prove alignment via the same index list.
* **C22** Mean average precision is a proper score. Model the ranking loop literally over lists; prove range, perfect score, error condition.
* **C23** Discarding links below the per-document minimum does not change mean average precision. Compare the metric on a sorted list and on its prefix/filter; prove equality for distinct scores.
* **C24** Mean reciprocal rank is the mean of the reciprocal ranks found. Model the nested loops with deletion; prove refinement to a set-based specification.
* **C25** Recall at m is a proportion and grows with m. Prove bounds and monotonicity from the set-based count.
* **C26** Precision at m is a proportion of the top m links. Violated (m+1 items are taken): bound (m+1)/m, attained witness.
* **C27** Group breakdown of precision and recall is complete. Model the scan and dictionaries; prove count conservation, error conditions, default grouping failure.
* **C28** Perplexity behaves like a perplexity. Real exp; prove inequalities and pooled bounds.
* **C29** Combining fold averages gives the pooled average. Fold over list of (average,count); prove equals pooled weighted mean by induction; error iff zero count.
* **C30** Moving tags out of a matrix loses nothing. Entries with stream; prove sum/disjointness/support.
* **C31** Most popular words are really the most popular. Sort as arbitrary sorting permutation; prove top-k.
* **C32** The cross-validation driver visits folds once each and pools exactly the finished ones. Loop with arbitrary per-fold outcomes; invariant.
* **C33** Truncating the number of folds is honoured by every driver. Violated for the hashtag driver: witness and exact behaviour (all folds attempted).
* **C34** User selection never asks a group for more than it has and meets the target. Model for-loop-with-removal literally with index semantics; invariants; termination measure.
* **C35** Selected users cover each group's contribution minimally. Model take-from-end loop; prove coverage and minimality.
* **C36** Per-user counts are summed and filtered strictly. Model association list; prove sums and filter.
* **C37** Parenthesised text is eliminated completely. Model counter loop over characters; spec by an independent nesting-depth function; idempotence.
* **C38** Exported text fields survive a CSV round-trip. Model escaping and a reference reader; negation witness; iff characterisation.
* **C39** Rolled-up result groups are document-weighted averages. Ordered field; weighted mean bounds.
* **C40** Author identifiers are a bijection. Model dedup/sort/enumerate; prove bijection onto 1..n and monotonicity.
* **C41** The vector transpose is an involution that loses nothing. Index arithmetic; involution and bijection for all sizes.
* **C42** Sparse and dense vector transposes agree. Model row walk over pointers; prove row recovery; equality with dense.
* **C43** The transposition matrix permutes vec(A) into vec(A^T). Index map; prove identity and permutation.
* **C44** Row and column ids are recovered from CSR pointers. Loop model; prove by induction over rows.
* **C45** Sparse element-wise kernels compute the documented product on the whole matrix. Loop model with start=0,end=rows; prove against entrywise spec.
* **C46** Sparse element-wise kernels restricted to a row range. Violated: witness; exact behaviour (offset values).
* **C47** Softmax returns distributions. Reals; prove positivity, sum, order, shift invariance.
* **C48** The stable log(1+exp x) is accurate everywhere. Reals; prove error bounds per region via log inequalities.
* **C49** Scaled soft dot products use the scale. Violated: prove result independent of scale; equals spec iff weighted sum coincides; witness.
* **C50** Training stops for convergence only when the bound has flattened. Decision logic over ordered field with tan epsilon; violated for decreasing bounds: witness; partial for non-decreasing.
* **C51** Gibbs sampling keeps its count tables consistent. Model sweep as state transformer with arbitrary draws; invariant by induction over tokens, documents, sweeps.
* **C52** Every sweep resamples every token exactly once. Prove visited offsets are a permutation for all lengths/offsets.
* **C53** Querying a Gibbs model leaves its topic-word counts alone. Invariant on query-mode sweep.
* **C54** The sampled topic is always a valid topic. Model cumulative scan; prove validity for 0<draw<=total and share property; violated for draw=0: index -1.
* **C55** Flattening a corpus into tokens preserves counts. Model expansion loop; prove count per document/word.
* **C56** Burn-in is never sampled and thinning takes every thin-th sweep. Model sample counter; prove formula; error condition.
* **C57** Gibbs topic and word estimates are distributions. Sum over samples; prove normalisation from C51.
* **C58** Querying a Gibbs model preserves its word distributions. Violated: exact formula relating returned and queried distributions; witness.
* **C59** Feature-driven topic sampling stays inside its sample buffer. Violated: exact iff over plan parameters; witness with default plan.
* **C60** Regression weights are fitted to the samples actually taken. Violated: slot contents after rounds; witness.
* **C61** Collapsed variational counts always equal the sums of the token responsibilities. Field arithmetic; invariant by induction over tokens and iterations.
* **C62** Querying a CVB0 model does not change it, training accumulates. Model add/subtract around the loop; prove cancellation.
* **C63** Second-order collapsed variational variances equal the sums of token variances. As C61 for variances; f64 proved; f32 violated with witness.
* **C64** Refining a second-order collapsed variational model accumulates counts. Violated: exact value of the field after second fit; witness.
* **C65** Variational training runs exactly the requested number of iterations. Arithmetic of segments; prove totals; violated for a log frequency above the iterations.
* **C66** Variational LDA conserves token mass. Field arithmetic; mass conservation by induction.
* **C67** Per-document variational inference stops after exactly three inner rounds. Model inner loop; prove idempotence and round count.
* **C68** Mixture-of-multinomials EM keeps proper distributions. Reals/field; invariant of normalisation and sums.
* **C69** Querying a mixture-of-multinomials EM model is a single step. Show query step is independent of state; idempotence; error on zero iterations.
* **C70** Mixture-of-multinomials Gibbs sampling keeps hard, counted memberships. Model one-hot draws; invariant.
* **C71** Short mixture Gibbs plans are usable. Violated: error iff thinning=0 iff iterations<10; witness.
* **C72** Switching between topic means and Dirichlet parameters is lossless. Field arithmetic; both compositions are identity.
* **C73** Online batches cycle through all documents fairly. Modular arithmetic; visit counts.
* **C74** Querying the Python variational model does not alter it. Violated: the update writes the shared array; witness.
* **C75** The requested online learning-rate schedule is used. Violated: decision logic; witness.
* **C76** Resuming requires the same dataset and persisted state. State machine over call sequences; invariant.
* **C77** fit_transform works for plain matrices. Violated: for every raw matrix the resume check fails.
* **C78** Scoring dispatches on its arguments as documented. Decision table; violated case proved.
* **C79** Mixture scores are log-likelihoods. Reals; error = S - log S >= 1 (violated everywhere); exact characterisation.
* **C80** Link prediction keeps every expected link and nothing below the minimum. List model of thresholded rows for arbitrary scores; completeness and soundness.
* **C81** Each undirected link is considered exactly once by the relational model. Model scan; correct for sorted rows, enumeration exactly once; witness for unsorted rows.
* **C82** Pruning never cuts columns off a rectangular link matrix. Violated: witness where the row count becomes equal to the column count by accident.
* **C83** Vector transposes work for every element type. Violated: model the dispatch on the element type; prove both fallbacks raise for every input.
* **C84** Mean average precision penalises expected links that were not retrieved. Violated: witness with score 1 and a missing link, the exact contribution of a missing link, and the claim for complete rankings.
* **C85** The tag prediction scores depend on the model's predictions. Violated: compose the kernel model with the metric model; prove the metric is the same for all models.
* **C86** The stable log(1+exp x) is increasing. Violated at the lower seam (exp x lies above log(1+exp x)); prove the drop exists by continuity, bound its size, and monotonicity within the regions.
* **C87** The safe logarithm clips from below, in place or not. Reals; both code paths equal log(max x eps).
* **C88** The safe x log x is the entropy term. Reals; log inequality at x e.
* **C89** Log-sum-exp is bracketed by the maximum. Reals.
* **C90** The safe determinant is always positive. Case analysis over the reals.
- **C91** Linear predictor as a finite sum over ℚ; violated (featureless document: prior zero; a one-word featureless document
  makes every draw select index −1; negative weights); positive for positive weights and documents with features.
- **C92** `np.squeeze` modelled by a two-constructor type; violated for one document, holds for any other number.
- **C93** Read the update off the token step of the C61 model; states with the token's own contribution removed.
- **C94** Two-step history over the C61 model: exact counts (twice), witness, and a partial for a fresh query state.
- **C95** Violated: the copied field is the counts; exact result, witness, partial for models with equal fields.
- **C96** Arity and buffer type of the compiled functions as values of an error type; violated for either precision.
- **C97** In-place normalisation as an explicit state change; violated, exact effect, partial for already normalised rows.
- **C98** The batch counter is part of the state; prove that it never leaves zero, so that the update is unreachable (violated).
- **C99** As C62 with variances, double precision.
- **C100** Closed form of a query's row; violated: the number of documents is added to the parameters (equivalence with the only
  exception); what remains: only their number matters.
- **C101** Violated: closed form of the word probabilities; for an increasing digamma function the result is stationary only if
  all topics are equally probable.
- **C102** The buffer is an argument of the model; violated for two documents of different lengths; holds for equal lengths.
- **C103** Closed form of a query's row.
- **C104** Violated: training with measurements ends in AttributeError (EM, unless the first iteration settles) and NameError
  (Gibbs, always); proved to succeed without measurements.
- **C105** Violated: witnesses for given assignments and for single documents; partial: succeeds otherwise.
- **C106** Closed form by the recursion of the gamma function, then consistency of the sequence probabilities.
- **C107** Violated: the result is a function of the last iteration's draws only.
- **C108** Violated: ZeroDivisionError without batch size, algorithm replaced otherwise; success proved for the other plans.
- **C109** Invariant of the inner loop (column sums of the gradient), applied to the last iteration.
- **C110** Violated: closed form of one step; partial: induction over the batches for delays of at least one.
- **C111** Violated: closed form of the total after one batch, fixed point by induction.
- **C112** Violated: number of visits of one pass, in closed form; partial for batch training.
* **C113** Explicit numbers of iterations are honoured. Violated for zero (`or` instead of a test for `None`); otherwise by cases of `fit` and `transform`.
* **C114** Scoring does not change the wrapper. Violated without a representation; otherwise by cases.
* **C115** Every kind of model can be fitted through the wrapper. Violated for LDA_SVB in every reachable state (induction over histories).
* **C116** Every scoring method is available for every kind. Violated; exact table.
* **C117** Names of scoring methods are read. Equivalence over all strings.
* **C118** Metrics are read from tuples of any length. Violated for lengths 0 and 1.
* **C119** Predicted link probabilities lie between 0 and 1. Violated for LDA similarities (exceed one unless disjoint); Cauchy-Schwarz for TF-IDF.
* **C120** Documents are not recommended to themselves. Violated; exact ranking of the document against itself.
* **C121** TF-IDF of a query document does not depend on its company. Violated by a witness; equal document frequencies suffice.
* **C122** Every link evaluation works with every link predictor. Violated; arities of calls and definitions.
* **C123** Training the relational model preserves mass. Induction over the sweep and the iterations, with early stops.
* **C124** The relational model can be queried. Violated: TypeError, and the table is left with means.
* **C125** The relational model accepts the documented topic priors. Violated for both documented forms.
* **C126** Predictions of the relational model are symmetric. Violated by a witness; values agree where both are kept.
* **C127** Training the correlated topic model keeps its parameters proper. Invariant of one iteration; induction; every exit of the loop.
* **C128** Updates of the topics hand out every token once. Rewrite the quotient as a posterior; sum over topics.
* **C129** Topic counts of a document sum to its length. Same rewriting.
* **C130** Updates of the topics never lower the penalised likelihood. Jensen's and Gibbs' inequalities.
* **C131** The reported log-likelihood is that of the corpus. Logarithm of the product; topics are distributions.
* **C132** Random initial topics are distributions. Violated for empty corpora (no end); otherwise induction over the draws.
* **C133** The coefficient of the logistic bound is right. Derivatives and monotonicity.
* **C134** The reported bound never exceeds what it bounds. Violated by a witness (doubled coefficients); otherwise integrate Bouchard's inequality.
* **C135** The coefficient of the bound does not depend on how it is asked for. Violated (sign).
* **C136** Every number of iterations and log frequency can be trained. Violated; invariant of the log index over the loop.
* **C137** Metrics of an early stop describe the model returned. Violated; shape of the log at every early exit.
* **C138** Topic distributions of the Böhning model are available. Violated (missing field).
* **C139** Queries of the Böhning model return the weights they computed. Violated in the fast mode; model of array aliasing.
* **C140** Correlated topic models learn correlations. Violated by construction; induction over iterations.
* **C141** The curvature matrix bounds the log-sum-exp. Popoviciu's inequality, then Taylor's expansion along a line.
* **C142** Accurate inference never gets worse. Minorisation by C141 and Jensen; induction over iterations.
* **C143** Sorting documents by length leaves the trained model unchanged. Refinement: a relation between sorted and unsorted state is kept by every step.
* **C144** Returned exponentials belong to their documents. Violated; exact rows from the refinement of C143.
* **C145** Words are paired with the topic weights of their own document. Violated in the first pass; refinement when the exponentials do not move.
* **C146** Topic updates share out every word once. Exchange of sums; witness for stm_yv_bohning.py.
* **C147** Length groups partition the documents. First occurrences in a sorted list.
* **C148** Rescaling the covariance cancels out. Uniqueness of inverses.
* **C149** Queries with features never get worse. Dictionary invariant, then C142's argument with the mean from the features.
* **C150** Queries observe the limit on iterations. Induction on the loop; violated by stm_yv_bohning.py.
* **C151** Feature weights solve their regression exactly. Normal equations and completing the square.
* **C152** The logged bound is the bound of the model. Difference of the two formulas; violated for dense features.
* **C153** Feature model logs stay in step. Invariant of the loop.
* **C154** Zero iterations and debug runs succeed. Violated; by computation.
* **C155** Training in batches agrees with training at once. Violated for two lengths: the last row of the second group is a zero row of the buffer.
* **C156** Dense and sparse features are accepted alike. Violated; by computation.
* **C157** A corpus may have a single document. Violated; shapes of squeezed arrays.
* **C158** Measuring the bound leaves the topic weights alone. Violated when an exponential underflows.
* **C159** The stored covariance is the best covariance. Plan: `log det B <= tr B - n` for positive definite `B` through eigenvalues and a square root, then the Gaussian likelihood over all positive definite matrices.
* **C160** Every training iteration improves on the one before. Plan: exact inverse as a Mathlib matrix inverse, positive definiteness of every inverted matrix as an invariant; the update of the means equals a query iteration after rescaling.
* **C161** Training learns the latent features. Plan: negation for `stm_yv_bohning.py` (constant over all runs); optimality of `Y` and `A` in `stm_uv_vecy_bohning.py` as `_partial`.
* **C162** Variances of topic weights are the best ones for the bound. Plan: strict concavity of the terms in the variance; the code's coefficient is the right one for no number of topics.
* **C163** Querying a matrix topic model. The conserved word counts of C165 show that the query's words replace those of training; for mtm3 induction over iterations.
* **C164** Copies. Heap with addresses; what a copy shares.
* **C165** Word counts. Induction over documents and iterations: each occurrence adds a distribution.
* **C166** Running sums. Induction over documents: one term is replaced.
* **C167** Symmetric covariance. Closed form of the accumulated matrix, witness of asymmetry.
* **C168** Shares. Compare divisor and dividend of each iteration.
* **C169** Link topics. Two softmaxes are equal exactly if the scores differ by a constant.
* **C170** Emission counts. Row sums against column sums.
* **C171** Link distributions. Witness whose rows sum to something else.
* **C172** Readable results. Field lists of the named tuples.
* **C173** Predicted links. Instance of the general completeness theorem for link prediction; both scores equal one probability.
* **C174** Trainable mtm2. Invariant: positive variances; covariance plus positive diagonal is positive definite.
* **C175** Queries of mtm2. Minorisation of the log posterior with fixed expected counts; aliasing of arrays.
* **C176** Covariances given. Independence of the arguments by definition of the loop's start.
* **C177** Well-defined mtm3. Invariant as in C174 over the five inner rounds.
* **C178** Link counts. Expected counts of the correlated topic models applied to the link matrix; witness for the wrong direction.
* **C179** Out-weights. The matrix I - 1/K bounds the curvature of log-sum-exp (shift invariance reduces it to Böhning's bound); each step maximises a minorant.
* **C180** In-weights. Substitute the stationarity equations into the linear system.
* **C181** Vocabulary updates. Instances of the EM argument of the correlated topic models.
* **C182** The offset model's scale minimises the link error. The error is a quadratic in the scale; complete the square. Self links break it (witness).
* **C183** The offset model's offsets minimise the penalised link error. Rank one update of a multiple of the identity: Sherman-Morrison gives what the code computes; witness with a better vector.
* **C184** Offsets can always be computed. The pivot of the rank one update is positive.
* **C185** Offset models train and query on any links. Without links the scale is zero; follow the exception.
* **C186** Offset models train with default settings. Follow the element type to the assertion.
* **C187** Mixture training and the bound. The relative entropy of Dirichlet distributions is non-negative by the log-convexity of the Beta function (`Lemmas/Dirichlet.lean`); E-step by Gibbs' inequality; induction over the loop.
* **C188** Mixture query. Gibbs' inequality for every document.
* **C189** Lower bound of the evidence. Sum over all assignments bounded below by the product distribution, urn probabilities as quotients of normalisers.
* **C190** Batch LDA and the bound. Exact effect of one pass (induction over the visits), then coordinate ascent as in C187.
* **C191** Value of `var_bound`. Algebraic identity with the bound, slip of the safe logarithm at most 1E-300.
* **C192** Lower bound of the evidence for LDA. As C189 with tokens as index type.
* **C193** Fast CTM = CTM. Refinement of training loops by induction; violated unless diagonal or square.
* **C194** Self-linked LDA usable. Model the prior, the initialisation, and train up to the failing call; violated.
* **C195** Topics of self-linked LDA. Normalisation of the first K columns.
* **C196** Vectorised STM trainable. Control flow with arbitrary numerical routines; violated.
* **C197** Newton for Dirichlet parameters. Sherman-Morrison for the step; concavity of the log likelihood for optimality.
* **C198** Fair shares. The loop that subtracts weights is shown to find the interval of the draw; the draws are counted with floors.
* **C199** Exact conditionals. The joint probability of LDA is defined with rising factorials; taking a token out and putting it back multiplies it by the sampler's weight.
* **C200** Invariance. Sweeps are walks on the finite set of assignments whose steps are draws from conditionals (`Lemmas/GibbsChain.lean`).
* **C201** Convergence. All assignments can be reached in one sweep with chances bounded away from zero, so that every sweep contracts.
* **C202** Training. The average over all random numbers of a whole run of `train` is unfolded into such a walk whose chances are off by at most one in `RAND_MAX`.
* **C203** Query. Violated: the initial assignment of the queried tokens is added to the fixed word counts. The limit is given exactly.
* **C204** Mixture sampler. Conditional probabilities of a Dirichlet-multinomial mixture as quotients of joint probabilities; violated, the prior used is one less.
* **C205** Mixture queries. Chain of C200 over the reals, limit under the prior minus one.
* **C206** DMR gradient. Derivative of the objective along every line, digamma as derivative of log Gamma, batches summed by induction.
* **C207** DMR objective. Posterior written with rising factorials, difference of objectives equals difference of log-posteriors.
* **C208** DMR weight update. Witness with one document, where two improvements make a loss; exact result; claim for one topic.
* **C209** DMR estimates. C202 with priors per document for plans with one round; comparison of the priors sampled and fitted.
* **C210** The bound of the correlated topic model is below the evidence. Gaussian Gibbs inequality (`Lemmas/Gauss.lean`), Jensen for the words, Bouchard's bound; then the terms of `var_bound` compared with it, giving the exact correction; a family of states whose excess is unbounded.
* **C211** The bound of the Bohning topic model is below the evidence. As C210 with the exact expected log-sum-exp; four equal topics as witness for every iteration.
* **C212** Queries of the correlated topic model return proper weights. Invariant of the loop, for the exact inverse of a positive definite matrix.
* **C213** Query steps set every parameter to its best value. The objective is a concave quadratic in the weights; log x <= x - 1 for the variances; completing the square for the offset.
* **C214** Queries infer each document on its own. Induction over iterations on two corpora that share a row; a witness for 23 and more iterations, whose coefficients decrease strictly for ever (`CtmStop`).
* **C215** Element type options are read or refused. Characterise the names by a separate predicate; case on the number of colons with the library lemmas on splitting.
* **C216** Feature masks are read as they were written. Write a mask with a separate printer, prove that reading undoes it.
* **C217** Saved models never overwrite each other. Injectivity of the file name in its numbers; the pairs of modules with one name are witnesses.
* **C218** Held-out hashtags are removed from the query. Through the theorems on the soft split (proportions 0 and 1).
* **C219** Hashtag precision and recall are proportions. Sums over a sublist of a permutation; witness with repeated tags.
* **C220** Evaluation by features does not train on what it queries. Induction on the mask with the theorem on the split by features.
* **C221** The command line program evaluates the model asked for. The call of the pruning has an unknown keyword: every run fails.
* **C222** Word lists hold each word as often as it was counted. Induction over the cells and rows of the sparse matrix; swaps permute; violated for fractions.
* **C223** Topic counts of the collapsed models divide the counts of the corpus. Combine C222 with the invariant that the counts are sums of the token probabilities.
* **C224** The bound of the collapsed models never exceeds the evidence. The logarithm of the normaliser of a Dirichlet distribution is convex: tangents, then Gibbs' inequality for the product distribution.
* **C225** The bound of the collapsed models adds the entropy. The code subtracts it; exact loss.
* **C226** Link weights climb the regularised likelihood of the links. Directional derivatives along lines with the normal distribution function of Mathlib; the objective that is climbed differs from the documented one.
* **C227** A stronger regulariser gives smaller weights. Difference of two steps; witness and exact factor.
* **C228** Invented negative examples lower the probability of links. Inner product with the invented example is a positive norm.
* **C229** Re-estimating the topic prior raises the likelihood. The digamma function is strictly monotone (convexity of log Gamma), so every update shrinks; counterexample.
* **C230** Topic priors stay positive. Invariant of the training loop by C229.
* **C231** The bound of the relational model never exceeds the evidence. Counterexample by the limits of the normal distribution function and log-convexity of Gamma; without links reduce to C192.
* **C232** Link scores are gradients. Derivative of the sum over pairs, each pair seen from both ends.
* **C233** Careful logarithms. The error of the rational approximation in t = x/(x+2) has a derivative of one rational function, bounded by interval estimates; mean value theorem.
* **C234** Entropy of a product. Fold of options (none is NaN) equals a finite sum; chain rule for logarithms; the fallback evaluated on a witness.
* **C235** Buffers. The kernels as functions of the buffer's data, with the flag whether the buffer is what is returned.
* **C236** Integer kernels. The branches over element types; the product by induction over the stored entries.
* **C237** Result titles. Splitting is inverse to joining; trimming leaves clean texts alone.
* **C238** Result files. The readers as functions of the remaining lines; induction over a list of entries with separators.
* **C239** arXiv files. Induction over the files; the field reader on lines given as skipped, first, continued and other lines.
* **C240** Names. Case analysis on the last two or three words.
* **C241** Authors read back. Composition with the reader of C-author lists (line_authors_spec).
* **C242** Text matrices. Rows converted one by one; storing is the identity on whole numbers.
* **C243** Arrays of copies. A heap with locations; a table of the fields of each module says which are copied; writes to the copy never reach a location of the original.
* **C244** Contents of copies. The same tables: what each field shows after copying.
* **C245** Wrapper copies. The constructor call in copy lacks an argument: negation for all states.
* **C246** Copied datasets. The same heap; each conversion either makes new arrays or overwrites shared ones.
* **C247** Wrapped LDA. Keywords passed against parameter names of the base class.
* **C248** Resuming. State with a flag that a finally clause clears; induction over histories of calls.
* **C249** Wrapped scores. Reduction to the specification of the sparse logarithmic product; separate corpus likelihood.
* **C250** Likelihoods with links. The sparse logarithmic product with a flag for reads outside the tables; a separate corpus likelihood of words and links; a two-document witness for the swapped indices.
* **C251** Point likelihoods of mixtures. Stable log-sum-exp in the reals; a witness with two topics for the sampler.
* **C252** Bounds of matrix topic models. Document-by-document form of each bound, Gibbs' inequality for Gaussian vectors (as C210, C211), and families of states on which the bound grows while the evidence stays zero.
* **C253** Priors learnt while sampling never worsen the fit to the topics. Model the fixed point update with its uninitialised accumulator as an arbitrary start; tangent bound of the leave-one-out likelihood for the repaired case, witnesses for NaN and garbage.
* **C254** Querying a sampler leaves its topic prior alone. Follow the prior through the sampling loop of a query.
* **C255** Topic priors may be numbers or vectors and every topic gets its own. Table of the conversions of nine modules; the collapsed ones average.
* **C256** Vocabulary priors may be numbers or vectors. Same table for the vocabulary.
* **C257** The invented negative examples are typical pairs of documents. Compare the vector of the code with the product of the means of the Dirichlet distribution.
* **C258** The vocabulary prior of the command line is the vocabulary prior of the model. Model Python's binding of arguments for every call of the program.
* **C259** The options for training reach the plan. Same binding for the plans.
* **C260** Debugging can be switched off. The conversion of texts by bool.
* **C261** A saved topic model is used only for the same documents in the same order. Model the comparison of the orders with its broadcasting; equality for orders without repetition.
* **C262** A topic model trained before is used in every evaluation of links. Violated; finite table of evaluations, kinds and recommenders, exact for each.
* **C263** A matrix topic model started from a topic model starts at its topics. Softmax of the centred logarithms gives the topics back.
* **C264** A fresh query state is not marked as processed. Violated with debugging on; exact otherwise.
* **C265** The tolerance of the plan decides when training stops. Model the stop rule of every loop on the list of measurements; violated, exact rule for the two loops that read the tolerance.
* **C266** Training stops early only after little change. Violated; exact rules, and the claim for the loops that compare absolute changes.
* **C267** Training does not stop before a number of iterations. Case by case from the rules, for increasing iterations.
* **C268** The bound of the topic model with features is below the evidence. Model the words of `var_bound` with both bounds of the normaliser; the evidence as an integral over Gaussian topic weights; a family of states with ever smaller covariances; the documents one by one through C210 and C211.
* **C269** Training with features keeps its parameters proper. Invariant of the iteration: positive diagonal covariance, variances below the prior, topics are distributions.
* **C270** Queries with features return proper weights. Invariant of the query step; the loop runs at least one step.
* **C271** Query steps with features improve the bound as far as they can. Concave in the weights, log-concave in the variances; strict version of Jaakkola's inequality for the coefficients.
* **C272** Training steps with features set the weights of documents to their best values. As C271; the first step has half the coefficients.
* **C273** The bound of the mixture sampler never exceeds the evidence. `var_bound` of mom_gibbs over ℝ; evidence as an integral over any distribution of parameters, at most one; the bound is a sum of products of nonpositive logarithms.
* **C274** Counts of topics in long documents are exact or refused. the 16-bit table as numbers modulo 65,536; invariant over any sequence of visits: counts modulo 65,536; estimates add up to one iff nothing wrapped.
* **C275** A reported fall of the bound is a fall. state machine of the variable kept between calls, over sessions of trainings; exact condition for every line; witnesses for first lines, small falls, second trainings and the sign shown.
* **C276** Numbers that are not probabilities are not stored as topic assignments. Invariant of the loops over topics, tokens and iterations; early return characterised for one token; witnesses with slightly negative priors.
* **C277** The estimates of the feature-driven sampler are distributions. The sums of estimates are sums of `sampleCount` distributions, an invariant of sweeps and rounds; witness with a negative feature.
* **C278** Querying the feature-driven sampler preserves its word distributions. Exact factor between the estimates before and after; consequences for the default plans.
* **C279** Likelihoods of the recommenders are those of the words under their topics. The sparse kernel's specification (C250) with the override; the square of the square root; TF-IDF compared with any model through the perplexity.
* **C280** The seed of a wrapper decides its random numbers. The two generators of the process as arbitrary states with arbitrary seeding functions; per kind which generator it uses. Reproducibility by cases over the kinds; for Gibbs all seeds give equal worlds.
* **C281** Wrappers with the same seed fit the same model. Two wrappers made and then fitted in turn; violated for every generator of which a draw changes the state; reassigning the seed before the fit restores the claim.
* **C282** A wrapper can be made again from its parameters. The constructor as a function from arguments to attributes; composed with reading the attributes it is the identity on its image; the exact set of fixed points.
* **C283** The settings given to a wrapper are the ones it uses. Violated for zero (`or`); proved otherwise.
* **C284** Changing a parameter is the same as constructing with it. One `set_params` compared with the constructor for every parameter; violated for iterations and kind.
* **C285** Topics that start from documents prefer their words. Induction over the draws gives the exact weights; violated for corpora without words.
* **C286** Initial topics have the scale of inferred ones. Sum of all weights; violated by mtm.
* **C287** No two topics start alike. Pigeonhole; violated when there are more topics than documents.
* **C288** Random starting points of the variational and mixture models are valid. Algebra with sums for arbitrary drawn distributions.
* **C289** Wrapped models report the parameters they were made with. Case analysis over the parameters; violated.
* **C290** Priors given to a wrapped model have an effect. Non-interference for the arguments that are dropped; violated by the HDP.
* **C291** The dictionary for gensim has every word of the vocabulary. Maximum over the words that occur; violated when the last word does not occur.
* **C292** The documented models can be reported. Split of the name as in `run`; the four documented names are refused (witness for all options), the accepted names are characterised.
* **C293** A report covers exactly the saved folds of its model. Patterns as lists of character classes; their language stated explicitly and compared with the names of `newModelFile`.
* **C294** Every configuration has its own report and its own count. Injectivity of the names; induction over the configurations gives the dictionary and the reports written.
* **C295** A report is its template with the placeholders filled. `Template.substitute` as a scanner; induction over templates given as lists of text and placeholders.
* **C296** The exported table of results is read back. A reader of fields, lines and tables as inductive relations, shown deterministic; the text written is read line by line.
* **C297** Printed tables of scores can be read back. Model of `printTable` with the texts of numbers; a printed row is cut at the bars and read cell by cell; the joined groups are weighted averages of numbers which are near.
* **C298** The exported results of a run are those of all its folds. The lines a run prints, in parts; lines the reader does not look for are passed over, so the first tables are taken.
* **C299** Queried documents are characterised by their words alone. The rows of the matrix of the bound sum to zero, so that the sum of the equations solved leaves the number of links.
* **C300** Renumbering the words changes nothing but the numbers. A relation between tables (entry i, j of the second is entry σ i, τ j of the first) is carried through every step by reindexing sums; loops by induction, errors included.
* **C301** No topic is treated differently from the others. The same relation in the topics; for the correlated topic model a witness with three topics shows that the first one is special.
* **C302** The order of the documents does not matter to training on the whole corpus. The same relation in the documents; for LDA the closed form of an iteration (C66, C190) replaces the loop over documents.
* **C303** Training can be interrupted and continued. Loops over n + m iterations split into two; what `train` resets at its start is shown not to matter. For online training the product of the step factors is computed, and one word with steps 1/2, 1/3 is a witness.
* **C304** Samplers and collapsed models see words only as labels. Every operation on the tables commutes with exchanging columns; folds over tokens, sweeps and samples commute with it by induction.
* **C305** Topics of collapsed models are interchangeable. The inner loop over topics reads values fixed before it, its updates of different topics commute, so a permuted loop gives the permuted result; induction over tokens and iterations with the invariant that the counts are sums (C61).
* **C306** Numbers do not matter to the topic models with features. Products, sums and inverses of tables follow the numbers of rows and columns; induction over the iterations. Sorting by length is removed by C143, or kept when the documents stay in place.
* **C307** Numbers do not matter to the models of links. As C306, with the links renumbered on both sides; induction over the documents for the models that visit them in order.
* **C308** Scores of predicted links do not depend on the numbers of the documents. Two sorted rearrangements with distinct scores are equal; violated with equal scores, for every ranking.
* **C309** Predicting an expected link more strongly never lowers the scores. The raised link moves up past its neighbours one at a time; one step of an expected link past another leaves every sum alone, past an unexpected one it raises it. Holds for every ranking that sorts by score.
* **C310** Training a model of links can be interrupted. Compare the second stage with the rest of a single run. Proved for mtm2 by induction; mtm3, mtm and rtm begin a stage with something else than they would go on with, shown with witnesses, and conditions under which the stages agree.
* **C311** Training a topic model with features can be interrupted. The loops are iterates of one step; what a stage resets (s, the covariance, the order of the documents) is unchanged, not read, or restored.
* **C312** Without truncation every evaluation runs all folds. Model: `FoldRuns` gives the folds started and the exception for each evaluation; false for tags, hashtags and precision and recall of links (`range(-1)`), proved for the others by induction over the folds.
* **C313** Truncated evaluations run the first folds, and never more than there are. Exact behaviour of each evaluation by induction over the folds; false for four of the six.
* **C314** Words with the same counts get the same probabilities. Exchange the two words: corpus and starting point are their own renumbering, so by the renumbering theorems the result is too. For lists of words a permutation of each document is built from the equal numbers of occurrences.
* **C315** Copies of a document get the same topics. As C314, with the two documents exchanged, and both ends of every link.
* **C316** Topics that start alike stay alike. As C314, with the two topics exchanged.
* **C317** Words that occur in no document keep the weight of their prior. The updates of the vocabulary, summed over documents none of which has the word; for the sampler an invariant of the sum of the samples. The collapsed models leave the prior out of `word_dists`: a violation.
* **C318** Documents without words are refused or get the topics that are expected beforehand. Invariants of the samplers' sums and the closed form of queries; the row of an empty document in a query of variational Bayes gets a term that does not belong to the prior: a violation, its exact form and when it does not matter.
* **C319** Features that no document has. The row of the ridge matrix of such a feature is that of the prior, so that the exact inverse fixes the weight; the shortest least-squares solution is zero there, a violation; the penalty alone decides in the objective of the other model.
* **C320** Without links the relational topic model is a model of the words alone. Simulation between two runs that agree but for the weights and the link function, step by step through a visit, a sweep, an iteration and the loop.
* **C321** Documents without expected links do not enter the scores of predicted links. Induction over the documents for each of the loops; the divisor of the mean average precision counts all documents, a violation with its exact factor.
* **C322** The likelihoods of the parts of a corpus add up. Sums over documents split at the boundary, through the kernel for sparse matrices where it is used; perplexities by the mediant inequality.
* **C323** Predictions that are not expected never raise the scores. The ranking with the additional link is the ranking without it with one element inserted; compared term by term.
* **C324** Predicting an expected link never lowers the scores. The link is appended last, which lowers no term, and then moved up step by step (C309). Fails for the mean reciprocal rank, which leaves links out that are not predicted.
* **C325** The link scores of a corpus are the weighted means of those of its parts. The closed forms of the scores (C24-C27) are sums over documents divided by a number that adds up.
* **C326** Only the order of the scores of predicted links matters. The sorted lists of links are the same as both are sorted permutations; the scores read these lists only.
* **C327** No prediction scores higher than a perfect one. In a perfect ranking the expected links come first; sums of reciprocals of distinct ranks by induction on the largest. Fails for the mean reciprocal rank with several expected links in a document.
* **C328** No model beats the word frequencies of each document. Gibbs' inequality row by row, for weights that sum to one plus the replaced zeros.
* **C329** Perplexity depends on the proportions of the words only. The log-likelihoods are linear in the counts; a witness for the exception.
* **C330** Perplexities over different vocabularies cannot be compared. The chance of a merged word is at least that of each of its words; sums over the words that become one.

## 4. Not modelled

* Convergence of the learning algorithms other than collapsed Gibbs sampling for
  LDA (C200 to C203), queries of the sampled mixture (C205) and one round of
  Dirichlet-multinomial regression (C209), statistical quality, and distributional
  claims about random numbers other than those of these properties and C198, where
  every value of `rand()` counts equally and all draws are independent.
* Floating point rounding, overflow and memory layout; pickling and file formats
  other than the text formats named in the properties.
* Of `query` of `ctm.py` the failure of the matrix inverse.
* Of the models with features: the batches of `stm_yv_bohning_fake_online.py` after
  the first iteration.
* Of `mtm.py`, `mtm2.py` and `mtm3.py` the initialisation from other models, except that of
  `mtm3.py` from a topic model (C263).
* `ctm_grad_arb.py` has no model of its own: it is the same text as `ctm_bohning.py`,
  so the theorems about the latter hold for it.
* Of `self_lda_vb_python.py` the functions that are only reached after the failing call
  in `train`; of `stm_uv_vec_y_bohning.py` the numbers computed by `train`.
* `rtm_fast.pyx`, which no module imports.
* `perplexity_generator.py`, whose one function raises a `NameError` for any topic counts and dimensions, because
  `np` is never imported, and `profile_algor.py`, a script that times one training run.
* The models in `old/`, notebooks, plotting, and tests.

### Wrong programs

`seeded/LOG.jsonl` has one line for each wrong program tried against the theorems. In early lines
`theorems_failed` lists what failed first, often a lemma on which the theorems rest, because the build
stops there. In later lines, and in the early ones that were tried again, every broken proof was
stubbed in the scratch copy, and the list has the theorems of the claim that could not be proved again.

## 5. What is modelled

Source files cited by the definitions of each module of the model; the line numbers are at the definitions.
What a cited function does beyond a definition (printing, timing, plotting) is left out.

* `Model/Copies.lean` (34 definitions): `ctm.py`, `common.py`, `lda_cvb.py`, `ctm_bohning.py`, `ctm_bohning_fast.py`, `dmr.py`, `lda_cvb0.py`, `lda_gibbs.py`, `lda_vb.py`, `lda_svb.py`, `self_lda_vb_python.py`, `lda_vb_python.py`, `mom_em.py`, `mom_gibbs.py`, `mtm.py`, `mtm2.py`, `mtm3.py`, `rtm.py`, `stm_uv_vec_y_bohning.py`, `stm_yv.py`, `stm_yv_bohning.py`, `stm_uv_vecy_bohning.py`, `stm_yv_bohning_fake_online.py`.
* `Model/Csr.lean` (7 definitions): `common.py`, `rtm.py`, `sparse_elementwise.py`, `vectrans.py`, `evals.py`, `lda_vb_python.py`, `stm_yv_bohning.py`.
* `Model/Ctm.lean` (39 definitions): `ctm.py`, `ctm_bohning.py`, `stm_yv.py`, `stm_yv_bohning.py`, `sparse_elementwise.py`, `stm_uv_vecy_bohning.py`, `stm_yv_bohning_fake_online.py`, `sigmoid_utils.py`, `array_utils.py`, `misc.py`, `ctm_bohning_fast.py`.
* `Model/CtmBound.lean` (5 definitions): `ctm.py`, `ctm_bohning.py`.
* `Model/CtmFast.lean` (4 definitions): `ctm_bohning_fast.py`, `ctm_bohning.py`.
* `Model/CtmQuery.lean` (4 definitions): `ctm.py`.
* `Model/Cvb.lean` (40 definitions): `lda_cvb0.py`, `lda_cvb0_fast.pyx`, `lda_cvb_fast.pyx`, `lda_cvb.py`.
* `Model/CvbBound.lean` (4 definitions): `lda_cvb0.py`, `lda_cvb.py`, `lda_cvb0_fast.pyx`, `lda_cvb_fast.pyx`.
* `Model/DataSet.lean` (27 definitions): `common.py`.
* `Model/DataSetOps.lean` (19 definitions): `common.py`.
* `Model/DebugReport.lean` (10 definitions): `ctm.py`, `stm_yv.py`, `ctm_bohning.py`, `mtm2.py`, `mtm3.py`, `stm_uv_vec_y_bohning.py`, `stm_yv_bohning.py`, `stm_uv_vecy_bohning.py`, `misc.py`.
* `Model/Dmr.lean` (17 definitions): `dmr.py`, `dmr_fast.pyx`.
* `Model/DmrCounts.lean` (11 definitions): `dmr_fast.pyx`, `dmr.py`.
* `Model/DmrEstimates.lean` (6 definitions): `dmr.py`.
* `Model/DmrWeights.lean` (12 definitions): `dmr.py`.
* `Model/Evals.lean` (18 definitions): `evals.py`.
* `Model/FoldRuns.lean` (13 definitions): `__main__.py`.
* `Model/Gibbs.lean` (38 definitions): `lda_gibbs_fast.pyx`, `lda_gibbs.py`, `dmr_fast.pyx`.
* `Model/GibbsHyper.lean` (8 definitions): `lda_gibbs_fast.pyx`, `dmr_fast.pyx`.
* `Model/Init.lean` (17 definitions): `lda_vb_python.py`, `mom_gibbs.py`, `mom_em.py`, `mtm2.py`, `mtm3.py`, `rtm.py`, `self_lda_vb_python.py`, `mtm.py`, `lda_vb.py`, `lda_svb.py`, `common.py`.
* `Model/Likelihoods.lean` (12 definitions): `se_fast.pyx`, `rtm.py`, `self_lda_vb_python.py`, `mtm.py`, `mom_em.py`, `sparse_elementwise.py`, `sigmoid_utils.py`, `mtm2.py`, `mtm3.py`, `mom_gibbs.py`.
* `Model/LinkPred.lean` (30 definitions): `sim_based_rec.py`, `lro_vb.py`, `rtm.py`, `__main__.py`, `mtm2.py`, `mtm3.py`.
* `Model/LinkSplit.lean` (16 definitions): `common.py`.
* `Model/LogUtils.lean` (12 definitions): `sparse_elementwise.py`, `overflow_safe.py`, `se_fast.pyx`.
* `Model/Lro.lean` (23 definitions): `lro_vb.py`, `lda_vb_python.py`.
* `Model/Mom.lean` (33 definitions): `mom_em.py`, `mom_gibbs.py`.
* `Model/MomBound.lean` (2 definitions): `mom_gibbs.py`.
* `Model/Mtm.lean` (68 definitions): `mtm3.py`, `mtm.py`, `mtm2.py`, `misc.py`, `sigmoid_utils.py`.
* `Model/MtmBound.lean` (8 definitions): `mtm.py`, `mtm3.py`, `mtm2.py`, `overflow_safe.py`.
* `Model/Numerics.lean` (19 definitions): `overflow_safe.py`, `sigmoid_utils.py`, `sig_fast.pyx`, `se_fast.pyx`, `misc.py`, `lda_cvb.py`, `sparse_elementwise.py`.
* `Model/Pretrained.lean` (21 definitions): `__main__.py`, `lda_vb_python.py`, `lda_gibbs.py`, `mtm3.py`, `lro_vb.py`, `sim_based_rec.py`.
* `Model/PrintedTable.lean` (19 definitions): `__main__.py`, `evals.py`.
* `Model/Priors.lean` (12 definitions): `lda_cvb0.py`, `lda_cvb.py`, `lda_gibbs.py`, `lda_vb.py`, `lda_vb_python.py`, `dmr.py`, `lda_svb.py`, `mom_em.py`, `mom_gibbs.py`, `lda_cvb0_fast.pyx`, `lda_cvb_fast.pyx`, `misc.py`.
* `Model/Py.lean` (3 definitions): `common.py`, `evals.py`.
* `Model/RecLikely.lean` (8 definitions): `sim_based_rec.py`, `lda_vb_python.py`, `lro_vb.py`, `__main__.py`.
* `Model/Reports.lean` (33 definitions): `report_generator.py`.
* `Model/ResultTable.lean` (8 definitions): `reshape_results.py`.
* `Model/Rtm.lean` (18 definitions): `rtm.py`, `misc.py`.
* `Model/RtmLearn.lean` (17 definitions): `rtm.py`.
* `Model/RunCli.lean` (17 definitions): `__main__.py`, `lda_cvb.py`, `lda_cvb0.py`, `mom_em.py`, `mom_gibbs.py`, `stm_yv_bohning.py`, `stm_uv_vecy_bohning.py`, `common.py`.
* `Model/RunFiles.lean` (53 definitions): `reshape_results.py`, `arxiv_to_aan.py`, `text_to_numpy.py`.
* `Model/RunMain.lean` (26 definitions): `__main__.py`, `evals.py`, `common.py`.
* `Model/RunOptions.lean` (11 definitions): `__main__.py`, `ctm.py`, `mom_gibbs.py`, `lda_vb_python.py`, `lda_gibbs.py`, `dmr.py`, `lro_vb.py`, `sim_based_rec.py`, `ctm_bohning.py`, `stm_yv.py`, `stm_yv_bohning.py`, `stm_yv_bohning_fake_online.py`, `mom_em.py`, `stm_uv_vec_y_bohning.py`, `lda_cvb.py`, `lda_cvb0.py`, `rtm.py`, `mtm2.py`, `mtm3.py`.
* `Model/RunTools.lean` (24 definitions): `selectusers.py`, `arxiv_author_ids.py`, `reshape_results.py`, `arxiv_to_aan.py`.
* `Model/Seeding.lean` (14 definitions): `lda_cvb.py`, `lda_gibbs.py`, `lda_gibbs_fast.pyx`, `lda_cvb0_fast.pyx`, `lda_cvb_fast.pyx`, `dmr_fast.pyx`, `lda_cvb0.py`, `lda_vb.py`, `lda_svb.py`, `lda_vb_python.py`, `mom_em.py`, `mom_gibbs.py`, `dmr.py`.
* `Model/Segments.lean` (18 definitions): `lda_vb.py`, `lda_cvb0.py`, `lda_cvb.py`, `lda_svb.py`, `lda_vb_fast.pyx`, `lda_cvb0_fast.pyx`.
* `Model/SelfLda.lean` (12 definitions): `self_lda_vb_python.py`.
* `Model/SingleDoc.lean` (13 definitions): `lda_vb_python.py`, `rtm.py`, `ctm.py`, `ctm_bohning.py`, `stm_yv_bohning.py`, `ctm_bohning_fast.py`, `stm_uv_vecy_bohning.py`, `stm_yv_bohning_fake_online.py`, `mom_gibbs.py`, `mom_em.py`, `lda_gibbs.py`, `stm_yv.py`, `lda_gibbs_fast.pyx`, `common.py`.
* `Model/SkOther.lean` (18 definitions): `lda_cvb.py`, `common.py`.
* `Model/SkParams.lean` (13 definitions): `lda_cvb.py`.
* `Model/SkWrapped.lean` (23 definitions): `lda_cvb.py`, `common.py`.
* `Model/Sklearn.lean` (32 definitions): `lda_cvb.py`, `lda_cvb0.py`, `lda_gibbs.py`, `mom_em.py`, `lda_vb.py`, `lda_vb_python.py`, `mom_gibbs.py`, `lda_svb.py`.
* `Model/SparseKernels.lean` (12 definitions): `se_fast.pyx`, `sparse_elementwise.py`.
* `Model/Stm.lean` (53 definitions): `stm_yv_bohning.py`, `stm_uv_vecy_bohning.py`, `stm_yv.py`, `stm_yv_bohning_fake_online.py`, `overflow_safe.py`.
* `Model/StmBound.lean` (6 definitions): `stm_yv.py`, `stm_yv_bohning.py`, `stm_uv_vecy_bohning.py`, `stm_yv_bohning_fake_online.py`.
* `Model/StmVecY.lean` (13 definitions): `stm_uv_vec_y_bohning.py`.
* `Model/StmYv.lean` (8 definitions): `stm_yv.py`, `ctm.py`.
* `Model/Stopping.lean` (9 definitions): `ctm.py`, `mtm3.py`, `ctm_bohning.py`, `lda_vb.py`, `ctm_bohning_fast.py`, `ctm_grad_arb.py`, `stm_yv.py`, `stm_yv_bohning.py`, `stm_yv_bohning_fake_online.py`, `stm_uv_vecy_bohning.py`, `stm_uv_vec_y_bohning.py`, `lda_cvb.py`, `lda_cvb0.py`, `lda_svb.py`, `lda_vb_python.py`, `rtm.py`, `self_lda_vb_python.py`, `mtm.py`, `mtm2.py`, `mom_em.py`, `mom_gibbs.py`, `misc.py`.
* `Model/Vb.lean` (36 definitions): `lda_vb_fast.pyx`, `lda_vb.py`.
* `Model/VbBound.lean` (8 definitions): `lda_vb_python.py`.
* `Model/VbPython.lean` (21 definitions): `lda_vb_python.py`, `rtm.py`.
* `Model/VecTrans.lean` (13 definitions): `vectrans.py`, `vt_fast.pyx`.
* `Model/WordList.lean` (11 definitions): `lda_cvb0_fast.pyx`, `lda_cvb0.py`, `lda_cvb.py`, `lda_cvb_fast.pyx`.

## 6. Where the code departs from its properties

Each is proved with a witness or for all inputs; see the theorems in the manifest.

* **C05** Document completion yields genuine (non-negative) counts. Violated by the code for large jitter: exact condition for a negative estimate, witness, and a sufficient range of jitters. (`sidetopics/model/common.py::DataSet.doc_completion_split`)
* **C06** Removing too-short documents during document completion. Violated by the code: removing a document always raises a TypeError; when nothing is removed the minimum has no effect. (`sidetopics/model/common.py::DataSet.doc_completion_split`)
* **C07** A directed link split is a partition of the links. Violated by the code: the slice bound is a float, so every call of link_prediction_split raises a TypeError. The partial theorems show what holds once the bound is an integer (floor division). (`sidetopics/model/common.py::DataSet.link_prediction_split`, `sidetopics/model/common.py::_split`)
* **C08** A symmetric link split yields two symmetric matrices that add up to the original. Violated by the code: every call raises a TypeError (float slice bound). With an integer bound the symmetric split is correct off the diagonal and doubles diagonal links. (`sidetopics/model/common.py::DataSet.link_prediction_split`, `sidetopics/model/common.py::_split_symm`, `sidetopics/model/common.py::_symm_csr`)
* **C14** Re-ordering a dataset either succeeds completely or leaves it unchanged. Violated by the code when categories are absent or the order is out of range; the exact half-way state is proved, and success for datasets with array categories. (`sidetopics/model/common.py::DataSet._reorder`, `sidetopics/model/common.py::DataSet.prune_and_shuffle`, `sidetopics/model/common.py::DataSet.from_files`)
* **C15** The document limit restricts the dataset. Violated by the code: the limit shortens the recorded order but not the dataset; exact effect, violation and the case where it does hold are proved. (`sidetopics/model/common.py::DataSet.__init__`, `sidetopics/model/common.py::DataSet.from_files`)
* **C19** Splitting on a feature separates train and query documents. Exact membership of both parts for all features; disjointness only for features that are zero or above 1e-30 (violated by cancelling features, witness); datasets with categories always fail. (`sidetopics/model/common.py::DataSet.split_on_feature`)
* **C20** Adding an intercept guarantees a constant feature. Proved for features not exceeding one; violated for a non-constant column of mean one (witness). The second-call part is proved for all features. (`sidetopics/model/common.py::DataSet.add_intercept_to_feats_if_required`)
* **C26** Precision at m is a proportion of the top m links. Violated by the code: the cut-off is off by one (hits among the first m+1 ranked links are divided by m), so precision can exceed one; exact value and the case in which it is a proper precision. (`sidetopics/model/evals.py::mean_prec_rec_at`)
* **C33** Truncating the number of folds is honoured by every driver. Violated by the code: the hashtag driver always runs every fold; the perplexity and the tag driver honour the truncation. (`sidetopics/run/__main__.py::cross_val_and_eval_hashtag_prec_at_m`, `sidetopics/run/__main__.py::cross_val_and_eval_perplexity`)
* **C38** Exported text fields survive a CSV round-trip. Violated by the code: a double quote is escaped twice; values without one survive, and only those. (`sidetopics/run/reshape_results.py::write_all_results`)
* **C46** Sparse element-wise kernels restricted to a row range. Violated by the code for ranges preceded by stored entries (the data index is not advanced over skipped rows): witness and exact behaviour; correct when nothing is stored before the range, in particular for start = 0. (`sidetopics/util/sparse_elementwise.py::sparseScalarQuotientOfDot`, `sidetopics/util/se_fast.pyx::sparseScalarQuotientOfDot_f8`, `sidetopics/util/se_fast.pyx::sparseScalarProductOfDot_f8`)
* **C49** Scaled soft dot products use the scale. Violated by the code: the scale is never read. (`sidetopics/util/sigmoid_utils.py::scaledSelfSoftDot`, `sidetopics/util/sig_fast.pyx::scaledSelfSoftDot`)
* **C50** Training stops for convergence only when the bound has flattened. Violated by the code: any decrease of the bound counts as convergence; exact condition and the claim for bounds that have not decreased. (`sidetopics/util/misc.py::converged`)
* **C54** The sampled topic is always a valid topic. Violated by the code for a draw of exactly zero, where index -1 is used; valid for every other draw. (`sidetopics/model/lda_gibbs_fast.pyx::sample`, `sidetopics/model/dmr_fast.pyx::sample`)
* **C58** Querying a Gibbs model preserves its word distributions. Violated by the code: the word distributions are multiplied by the ratio of the numbers of samples. (`sidetopics/model/lda_gibbs.py::query`, `sidetopics/model/lda_gibbs.py::wordDists`, `sidetopics/model/sklearn/lda_cvb.py::TopicModel.transform`)
* **C59** Feature-driven topic sampling stays inside its sample buffer. Violated by the code: training with the default plan for 1 to 49 iterations and every default query of 20 or more iterations write outside of the buffer. (`sidetopics/model/dmr.py::train`, `sidetopics/model/dmr.py::query`, `sidetopics/model/dmr.py::newTrainPlan`)
* **C60** Regression weights are fitted to the samples actually taken. Violated by the code from the second update on: it is given zeros for the earlier samples. (`sidetopics/model/dmr.py::train`, `sidetopics/model/dmr_fast.pyx::sample`)
* **C63** Second-order collapsed variational variances equal the sums of token variances. Violated by the single precision code; proved for double precision. (`sidetopics/model/lda_cvb_fast.pyx::iterate_f64`, `sidetopics/model/lda_cvb_fast.pyx::iterate_f32`)
* **C64** Refining a second-order collapsed variational model accumulates counts. Violated by the code: refining loses the topic totals of the first fit. (`sidetopics/model/lda_cvb.py::train`)
* **C65** Variational training runs exactly the requested number of iterations. Violated by the code for a log frequency larger than the iterations (CVB0 and CVB run longer, variational Bayes raises IndexError), and because variational Bayes in double precision cannot be trained; proved otherwise. (`sidetopics/model/lda_vb.py::train`, `sidetopics/model/lda_svb.py::train`, `sidetopics/model/lda_cvb0.py::train`)
* **C70** Mixture-of-multinomials Gibbs sampling keeps hard, counted memberships. Memberships are proved. Violated by the code for the weights: they are the prior minus one plus the number of other documents, so they can be negative. (`sidetopics/model/mom_gibbs.py::sample_memberships`)
* **C71** Short mixture Gibbs plans are usable. Violated by the code for default plans of fewer than ten iterations. (`sidetopics/model/mom_gibbs.py::newTrainPlan`, `sidetopics/model/mom_gibbs.py::is_sampling_iteration`, `sidetopics/model/mom_gibbs.py::query`)
* **C72** Switching between topic means and Dirichlet parameters is lossless. The round trips and the measuring functions are proved. Violated by the code in training with the algorithm amari, which converts twice in the same direction. (`sidetopics/model/lda_vb_python.py::_convertDirichletParamToMeans`, `sidetopics/model/lda_vb_python.py::_convertMeansToDirichletParam`, `sidetopics/model/rtm.py::min_link_probs`)
* **C74** Querying the Python variational model does not alter it. Violated by the code for every batch plan with at least one iteration. (`sidetopics/model/lda_vb_python.py::query`, `sidetopics/model/lda_vb_python.py::train`)
* **C75** The requested online learning-rate schedule is used. Violated by the code for positive batch sizes. (`sidetopics/model/lda_vb_python.py::newTrainPlan`)
* **C76** Resuming requires the same dataset and persisted state. Violated by the code: a fit that is rejected because it cannot resume leaves a new, untrained model behind if there was none. Proved otherwise, over all call histories. (`sidetopics/model/sklearn/lda_cvb.py::TopicModel.fit`, `sidetopics/model/sklearn/lda_cvb.py::TopicModel.transform`, `sidetopics/model/sklearn/lda_cvb.py::TopicModel.make_or_resume_query_state`)
* **C77** fit_transform works for plain matrices. Violated by the code for every plain matrix; proved for dataset objects. (`sidetopics/model/sklearn/lda_cvb.py::TopicModel.fit_transform`, `sidetopics/model/sklearn/lda_cvb.py::TopicModel.transform`)
* **C78** Scoring dispatches on its arguments as documented. Violated by the code: bound-based methods without a representation never succeed. (`sidetopics/model/sklearn/lda_cvb.py::TopicModel.score`)
* **C79** Mixture scores are log-likelihoods. Violated by the code: the score exceeds the log-likelihood by at least one and at most the number of components, for every document. (`sidetopics/model/sklearn/lda_cvb.py::TopicModel._log_likelihood_score_point`)
* **C80** Link prediction keeps every expected link and nothing below the minimum. Proved for the LDA similarities, the LRO model and the relational model; violated by the code for TF-IDF: if the first expected link of a document has an empty representation, all its links are lost. Rounding errors are not modelled. (`sidetopics/model/sim_based_rec.py::link_probs_lda`, `sidetopics/model/sim_based_rec.py::min_link_probs_lda`, `sidetopics/model/lro_vb.py::link_probs`)
* **C82** Pruning never cuts columns off a rectangular link matrix. Violated by the code: witness proved. (`sidetopics/model/common.py::DataSet.prune_and_shuffle`, `sidetopics/model/common.py::DataSet.reorder`)
* **C83** Vector transposes work for every element type. Violated by the code: both fallbacks raise for every input (dense: AttributeError, sparse: TypeError for the float shape). The partial theorem covers the compiled types. (`sidetopics/util/vectrans.py::vec_transpose`, `sidetopics/util/vectrans.py::_vec_transpose_csr_jit`)
* **C84** Mean average precision penalises expected links that were not retrieved. Violated by the code: a document all of whose retrieved links are expected scores 1 although expected links are missing; exact contribution of a missing link; the partial theorem covers rankings that contain every expected link. (`sidetopics/model/evals.py::mean_average_prec`)
* **C85** The tag prediction scores depend on the model's predictions. Violated by the code: predictions are computed only at the positions of the held-out tags, so the mean average precision is the same for all models; the partial theorem is about predictions at a larger set of positions. (`sidetopics/run/__main__.py::cross_val_and_eval_tag_prec_rec_at_m`)
* **C86** The stable log(1+exp x) is increasing. Violated by the code at the seam at -17; drops are at most 9.4e-15 and none occurs within the regions shown. (`sidetopics/util/se_fast.pyx::_safe_log_one_plus_exp_f8`)
* **C91** Topic priors derived from features are positive. Violated by the code: the sampler's prior is the linear predictor, not its exponential. (`sidetopics/model/dmr.py::train`, `sidetopics/model/dmr.py::objective`, `sidetopics/model/dmr_fast.pyx::sample`)
* **C92** A corpus of any number of documents can be sampled. Violated by the code for a single document. (`sidetopics/model/lda_gibbs_fast.pyx::flatten`, `sidetopics/model/lda_gibbs.py::train`, `sidetopics/model/lda_gibbs.py::query`)
* **C94** Continuing training does not count documents twice. Violated by the code: with a kept query state every document is counted twice. (`sidetopics/model/lda_cvb0.py::train`, `sidetopics/model/sklearn/lda_cvb.py::TopicModel.fit`)
* **C95** Copying a second-order collapsed variational model copies its variances. Violated by the code. (`sidetopics/model/lda_cvb.py::newModelFromExisting`)
* **C96** Variational Bayes can be trained and queried in either precision. Violated by the code: no precision allows both training and querying. (`sidetopics/model/lda_vb.py::train`, `sidetopics/model/lda_vb.py::query`, `sidetopics/model/lda_svb.py::train`)
* **C97** Reading the distributions of a variational Bayes model does not change it. Violated by the code: reading normalises the model in place. (`sidetopics/model/lda_vb.py::wordDists`, `sidetopics/model/lda_vb.py::topicDists`)
* **C98** Mini-batch variational Bayes learns from its batches. Violated by the code: the batch counter is never advanced. (`sidetopics/model/lda_vb_fast.pyx::iterate_f64`)
* **C100** Inferred topics of a document do not depend on the other documents. Violated by the code: the number of documents enters every document's topics. (`sidetopics/model/lda_vb_fast.pyx::infer_topics_f64`, `sidetopics/model/lda_vb.py::query`)
* **C101** Words are interpreted in the context of their document. Violated by the code: the document's topics are reset before every round. (`sidetopics/model/lda_vb_fast.pyx::infer_topics_f64`)
* **C102** The variational bound is a function of model and data. Violated by the code for documents of different lengths. (`sidetopics/model/lda_vb.py::var_bound`)
* **C104** Mixture models can be trained with the default plan. Violated by the code: an attribute and a name that do not exist are used when the likelihood is to be logged. (`sidetopics/model/mom_em.py::train`, `sidetopics/model/mom_em.py::var_bound`, `sidetopics/model/mom_gibbs.py::train`)
* **C105** The expected likelihood of the EM mixture can be computed. Violated by the code with assignments and for single documents. (`sidetopics/model/mom_em.py::log_likelihood_expected`)
* **C107** Mixture Gibbs training returns the average of its samples. Violated by the code: the last state is returned and the accumulated samples are dropped. (`sidetopics/model/mom_gibbs.py::train`)
* **C108** Training plans of the Python variational model can be trained. Violated by the code: other algorithms than batch fail without a batch size, and amari and variance are never used. (`sidetopics/model/lda_vb_python.py::newTrainPlan`, `sidetopics/model/lda_vb_python.py::train`)
* **C110** Online training keeps word parameters positive. Violated by the code when the first step is larger than one. (`sidetopics/model/lda_vb_python.py::train`, `sidetopics/model/lda_vb_python.py::update_inplace_v`)
* **C111** Online training aims at the word parameters of the whole corpus. Violated by the code: the gradient of a batch is not scaled to the corpus. (`sidetopics/model/lda_vb_python.py::train`)
* **C112** An iteration of the Python variational model visits each document once. Violated by the code with batches. (`sidetopics/model/lda_vb_python.py::train`)
* **C113** Explicit numbers of iterations are honoured. Violated by the code for zero iterations. (`sidetopics/model/sklearn/lda_cvb.py::TopicModel.fit`, `sidetopics/model/sklearn/lda_cvb.py::TopicModel.transform`)
* **C114** Scoring does not change the wrapper. Violated by the code without a representation: the persisted query state is forgotten. (`sidetopics/model/sklearn/lda_cvb.py::TopicModel.score`)
* **C115** Every kind of model can be fitted through the wrapper. Violated by the code: the stochastic variational model can never be fitted. (`sidetopics/model/sklearn/lda_cvb.py::TopicModel.fit`, `sidetopics/model/sklearn/lda_cvb.py::TopicModel.make_or_resume_query_state`, `sidetopics/model/sklearn/lda_cvb.py::TopicModelType`)
* **C116** Every scoring method is available for every kind of model. Violated by the code: most modules lack functions that scoring calls. (`sidetopics/model/sklearn/lda_cvb.py::TopicModel.score`, `sidetopics/model/sklearn/lda_cvb.py::ScoreMethod`)
* **C118** Metrics are read from tuples of any length. Violated by the code for tuples of length zero and one. (`sidetopics/model/sklearn/lda_cvb.py::EpochMetrics.from_ibl_tuple`)
* **C119** Predicted link probabilities lie between 0 and 1. Violated by the code for the LDA similarities, which exceed one unless the distributions are disjoint. (`sidetopics/model/sim_based_rec.py::link_probs_lda`, `sidetopics/model/sim_based_rec.py::link_probs_tfidf`, `sidetopics/model/rtm.py::link_probs`)
* **C120** Documents are not recommended to themselves. Violated by the code: documents score best against themselves and are kept. (`sidetopics/model/sim_based_rec.py::link_probs_lda`, `sidetopics/model/sim_based_rec.py::link_probs_tfidf`)
* **C121** The TF-IDF representation of a query document does not depend on the other query documents. Violated by the code: document frequencies are those of the query corpus. (`sidetopics/model/sim_based_rec.py::query`, `sidetopics/model/sim_based_rec.py::train`)
* **C122** Every link evaluation works with every link predictor. Violated by the code: no predictor's signature fits all evaluations. (`sidetopics/run/__main__.py::link_split_prec_rec`, `sidetopics/run/__main__.py::link_split_map`, `sidetopics/run/__main__.py::insample_lro_style_prec_rec`)
* **C124** The relational model can be queried. Violated by the code: every query for one or more iterations raises a TypeError. (`sidetopics/model/rtm.py::query`)
* **C125** The relational model accepts the documented topic priors. Violated by the code for numbers and vectors of one value per topic. (`sidetopics/model/rtm.py::newModelAtRandom`, `sidetopics/model/rtm.py::newQueryState`)
* **C126** Predictions of the relational model are symmetric. Violated by the code: the thresholds are per row. (`sidetopics/model/rtm.py::link_probs`)
* **C132** Random initial topics are distributions. Violated by the code: the sampling never ends when all documents are empty, and the stop-word topic of ctm_bohning is zero for words that do not occur. Otherwise distributions, after at most a thousand draws when no document is empty. (`sidetopics/model/ctm.py::newModelAtRandom`, `sidetopics/model/ctm_bohning.py::newModelAtRandom`)
* **C134** The reported bound never exceeds what it bounds. Violated by the code: train doubles the coefficients, so the terms may exceed what they bound. Valid with the coefficients as defined, for every distribution. The value of var_bound as a whole is treated in C210. (`sidetopics/model/ctm.py::var_bound`, `sidetopics/model/ctm.py::train`, `sidetopics/model/stm_yv.py::var_bound`)
* **C135** The coefficient of the bound does not depend on how it is asked for. Violated by the code: jakkolaOfDerivedXi changes its sign when a document is given. (`sidetopics/model/ctm.py::negJakkolaOfDerivedXi`, `sidetopics/model/ctm.py::jakkolaOfDerivedXi`)
* **C136** Every number of iterations and log frequency can be trained. Violated by the code: IndexError unless the log frequency divides the number of iterations or the run stops early; ZeroDivisionError for 0; ValueError for negative ones. (`sidetopics/model/ctm.py::train`, `sidetopics/model/stm_yv.py::train`, `sidetopics/model/stm_uv_vecy_bohning.py::train`)
* **C137** Metrics of an early stop describe the model returned. Violated by the code: the last measurement is dropped, and three of the models return the likelihoods at their full length. (`sidetopics/model/ctm.py::train`, `sidetopics/util/misc.py::clamp`, `sidetopics/model/stm_yv.py::train`)
* **C138** Topic distributions of the Böhning model are available. Violated by the code: an AttributeError for every query state. (`sidetopics/model/ctm_bohning.py::topicDists`)
* **C139** Queries of the Böhning model return the weights they computed. Violated by the code in the fast mode: the softmax of the initial weights is returned whatever the words; the new variances are never returned. In the accurate mode the weights are those of the last iteration. (`sidetopics/model/ctm_bohning.py::query`)
* **C140** Correlated topic models learn correlations. Violated by the code: the covariance is the identity or diagonal. (`sidetopics/model/ctm.py::train`, `sidetopics/model/ctm_bohning.py::train`)
* **C144** Returned exponentials belong to their documents. Violated by the code: the rows are in the order of the lengths. Right when the lengths are ascending. (`sidetopics/model/stm_uv_vecy_bohning.py::train`, `sidetopics/model/stm_yv_bohning.py::train`)
* **C145** Words are paired with the topic weights of their own document. Violated by the code in the first pass: the words are sorted, expMeans is not. Right (a refinement) when sorting does not move expMeans, e.g. ascending lengths; least squares is an arbitrary function of the set of rows. (`sidetopics/model/stm_yv_bohning.py::train`)
* **C146** Topic updates share out every word once. Holds for stm_uv_vecy_bohning.py. Violated by the first pass of stm_yv_bohning.py, which uses the raw counts; afterwards the quotients are those of the topics and the exponentials of the pass before. (`sidetopics/model/stm_uv_vecy_bohning.py::train`, `sidetopics/model/stm_yv_bohning.py::train`)
* **C150** Queries observe the limit on iterations. Violated by stm_yv_bohning.py: at least 100 iterations are allowed whatever the plan. Holds for the other two models and from 100 iterations on. (`sidetopics/model/stm_yv_bohning.py::query`, `sidetopics/model/stm_uv_vecy_bohning.py::query`, `sidetopics/model/stm_yv_bohning_fake_online.py::query`)
* **C152** The logged bound is the bound of the model. Violated by the code for dense features, where XTX and R_A are the same array. Holds for sparse features. (`sidetopics/model/stm_yv_bohning.py::train`, `sidetopics/model/stm_yv_bohning.py::var_bound`, `sidetopics/model/stm_yv.py::train`)
* **C154** Zero iterations and debug runs succeed. Violated by the code: UnboundLocalError and TypeError. From one iteration on the scaled covariance is returned. (`sidetopics/model/stm_yv_bohning.py::train`, `sidetopics/model/stm_yv.py::_debug_with_bound`)
* **C155** Training in batches agrees with training at once. Violated by the code: with two different lengths a document is divided by zero in the first iteration. Holds when all lengths are equal. Modelled for the first iteration and up to one batch of documents. (`sidetopics/model/stm_yv_bohning_fake_online.py::train`)
* **C156** Dense and sparse features are accepted alike. Violated by the code: an AttributeError. (`sidetopics/model/stm_uv_vecy_bohning.py::train`, `sidetopics/model/stm_yv_bohning_fake_online.py::train`)
* **C157** A corpus may have a single document. Violated by the code: np.squeeze removes the only dimension. Holds for any other number of documents. (`sidetopics/model/lda_vb_python.py::newQueryState`, `sidetopics/model/mom_gibbs.py::newQueryState`, `sidetopics/model/rtm.py::newQueryState`)
* **C158** Measuring the bound leaves the topic weights alone. Violated by the code: weights whose exponential underflows become minus infinity. Otherwise they are unchanged, in exact arithmetic. (`sidetopics/model/stm_yv.py::var_bound`)
* **C161** Training learns the latent features. Violated by stm_yv_bohning.py, which returns Y, V and R_Y as given. In stm_uv_vecy_bohning.py Y and A are the best given V. (`sidetopics/model/stm_yv_bohning.py::train`, `sidetopics/model/stm_uv_vecy_bohning.py::train`)
* **C162** Variances of topic weights are the best ones for the bound. Violated by the code for every number of topics and every document with words: the coefficient is (K-1)/K while the diagonal of the bound's matrix is K/(2(K+1)). Right for documents without words. (`sidetopics/model/stm_uv_vecy_bohning.py::query`, `sidetopics/model/stm_uv_vecy_bohning.py::train`, `sidetopics/model/stm_yv_bohning.py::query`)
* **C163** Querying a matrix topic model leaves it alone. Violated by mtm.py: query trains the word parameters of the model on the query corpus. Holds without iterations, and in mtm3.py, where only the out-weights and their variances change. (`sidetopics/model/mtm.py::query`, `sidetopics/model/mtm3.py::query`)
* **C164** Training a copy of a matrix topic model leaves the original alone. Violated by mtm.py, whose copies share the covariance. Holds for mtm2.py and mtm3.py. (`sidetopics/model/mtm.py::newModelFromExisting`, `sidetopics/model/mtm2.py::newModelFromExisting`, `sidetopics/model/mtm3.py::newModelFromExisting`)
* **C167** The topic covariance of a matrix topic model is symmetric. Violated by the code: the variances are added to every row instead of the diagonal. The exact formula is proved, and when it is symmetric. (`sidetopics/model/mtm.py::train`)
* **C168** The shares of documents in a topic sum to one. Violated by the code in the first iteration, where sums of unshifted exponentials divide shifted ones; holds from the second iteration on for the weights at its start. (`sidetopics/model/mtm.py::train`)
* **C169** Topics of links follow the current weights. Violated by the code: the normalisers of the topics are those of the initial weights. Right initially, and exactly when they differ from the current ones by a common constant. (`sidetopics/model/mtm.py::_infer_link_topics_at_d`, `sidetopics/model/mtm.py::train`)
* **C170** Emission counts count words and outgoing links. Violated by the code, which adds incoming links. Right for symmetric links; the totals agree. (`sidetopics/model/mtm.py::newQueryState`)
* **C171** Link distributions are distributions over documents. Violated by the code: the columns, not the rows, are distributions. (`sidetopics/model/mtm.py::linkDists`)
* **C172** Results of a matrix topic model can be read. Violated by the code: topicDists of mtm2.py and mtm3.py and link_probs of mtm.py read fields that do not exist; the others can be read. (`sidetopics/model/mtm.py::link_probs`, `sidetopics/model/mtm2.py::topicDists`, `sidetopics/model/mtm3.py::topicDists`)
* **C174** The second matrix topic model can be trained with every plan. Violated by the code: fastButInaccurate, a single topic or a single document raise ValueError. Otherwise any number of iterations completes and every matrix inverted is positive definite, starting from positive variances and proper topics. (`sidetopics/model/mtm2.py::train`)
* **C175** Queries of the second matrix topic model infer topic weights. Violated by the code: with fastButInaccurate the result is the softmax of the initial means whatever the words; the variances returned are those passed in. The weights of the accurate variant are at least as probable as the initial ones. (`sidetopics/model/mtm2.py::query`)
* **C176** Training the third matrix topic model uses the covariances given. Violated by the code, which replaces the covariances by 10 and 1. Continuing works exactly as one run if the in-covariances were one. (`sidetopics/model/mtm3.py::train`)
* **C178** Topic counts of links are expected counts. Violated by the code: for links into a document the topic is drawn from the target's weights instead of the source's; exact formula proved. Counts of out-links are the expected ones, and all counts sum to the numbers of links. (`sidetopics/model/mtm2.py::train`, `sidetopics/model/mtm3.py::train`)
* **C180** Optimal weights that attract links are kept. Violated by the code: coefficients of the sum over the other documents do not cancel. Optimal weights are kept exactly if for every topic with links the other documents' weights sum to zero; the same for mtm2.py. (`sidetopics/model/mtm3.py::train`, `sidetopics/model/mtm2.py::train`)
* **C182** The offset model's scale minimises the link error. Violated by the code if a document links to itself: its own pair is counted with the difference of the weights. Without self links the scale is the unique minimiser. (`sidetopics/model/lro_vb.py::train`)
* **C183** The offset model's offsets minimise the penalised link error. Violated by the code: the matrix is built from outer products with the document's own topics and the right hand side lacks the noise. Exact closed form proved. Optimal if the noise is one and all documents have the same topics. (`sidetopics/model/lro_vb.py::train`)
* **C185** Offset models train and query on any links. Violated by the code: without links the scale is zero, the offsets divided by it are not finite, and `norm` raises ValueError; queries do the same. The first iteration succeeds from positive topics if there is a link and no self link. (`sidetopics/model/lro_vb.py::train`, `sidetopics/model/lro_vb.py::query`)
* **C186** Offset models train with default settings. Violated by the code: the default element type is float32, which the topic inference refuses with AssertionError. With float64 training continues with the topics found. (`sidetopics/model/lro_vb.py::newModelAtRandom`, `sidetopics/model/lro_vb.py::train`)
* **C193** The fast correlated topic model computes what the ordinary one does. Violated by the code: without the diagonal approximation every training of at least one iteration raises a ValueError unless there are as many documents as topics (and has overwritten the caller's means). agrees_iff states exactly when the modules agree. (`sidetopics/model/ctm_bohning_fast.py::train`, `sidetopics/model/ctm_bohning.py::train`)
* **C194** A self-linked LDA model can be initialised, trained and queried. Violated by the code: no model of newModelAtRandom gets a query state, documented priors are rejected, and train and query fail for every positive number of iterations, after erasing the word table. Zero iterations return the state unchanged. (`sidetopics/model/self_lda_vb_python.py::newModelAtRandom`, `sidetopics/model/self_lda_vb_python.py::newQueryState`, `sidetopics/model/self_lda_vb_python.py::train`)
* **C196** The topic model with vectorised latent features can be trained. Violated by the code: train always raises (TypeError when the systems can be solved), query and topicDists always raise an AttributeError. (`sidetopics/model/stm_uv_vec_y_bohning.py::train`, `sidetopics/model/stm_uv_vec_y_bohning.py::unvec`, `sidetopics/model/stm_uv_vec_y_bohning.py::query`)
* **C203** Query estimates are posterior means under the model's words. Violated by the code: the words of the queried documents are added to the topics they have at random at the start and stay there, so that the limit depends on the start. query_estimates gives the distribution that is approached instead. (`sidetopics/model/lda_gibbs.py:224-257`, `sidetopics/model/lda_gibbs_fast.pyx:159-290`)
* **C204** The mixture sampler draws topics from their conditional probabilities. Violated by the code: one is subtracted from the prior, which is right for the most probable proportions but not for their average. sampled_exact is the distribution a sweep draws from, sampled_iff says when it is the right one; chance_* say the same of the weights alone. Word probabilities at or above the floor of safe_log. (`sidetopics/model/mom_gibbs.py::sample_memberships`)
* **C205** Expected answers of a mixture query are posterior probabilities. Violated by the code: the limit is the posterior for the prior minus one (query_converges_partial), which differs from the posterior. Topics are drawn exactly with the sampler's chances. (`sidetopics/model/mom_gibbs.py::query`, `sidetopics/model/mom_gibbs.py::sample_memberships`)
* **C208** A weight update never lowers the posterior of the weights. Violated by the code: every topic is fitted against the old weights of all the others, so improvements may add up to a loss. update_raises_partial: the claim when only one topic gets new weights. (`sidetopics/model/dmr.py::updateWeights`, `sidetopics/model/dmr.py::train`)
* **C209** Feature-driven topic estimates are posterior means under the fitted priors. Violated by the code: topics are sampled with the priors X.W, weights are fitted for the priors exp(X.W), which are larger by at least one for all weights. one_round_estimates_partial: with one round, estimates are posterior means under X.W. (`sidetopics/model/dmr.py::train`, `sidetopics/model/dmr.py::objective`, `sidetopics/model/dmr_fast.pyx::sample`)
* **C210** The bound of the correlated topic model is below the evidence. Violated by the code: the determinant of the covariance is subtracted instead of its logarithm and the maximum of the weights is dropped; the excess over the evidence has no limit. The value plus an exact correction is a bound, and in training the value logged is a bound whenever no prior variance exceeds one. (`sidetopics/model/ctm.py::var_bound`, `sidetopics/model/ctm.py::train`)
* **C211** The bound of the Bohning topic model is below the evidence. Violated by the code: after every iteration on a corpus of equal topics the value exceeds the evidence by more than two. The value plus an exact correction is a bound. (`sidetopics/model/ctm_bohning.py::var_bound`)
* **C213** Query steps set every parameter to its best value. Violated by the code: the offset is computed by the formula for half the coefficients and is not the best one unless there are exactly two topics; exact loss proved. Weights and variances are the best ones for the slopes of the initial weights, which are never updated. (`sidetopics/model/ctm.py::query`)
* **C214** Queries infer each document on its own. Violated by the code: from the 22nd iteration on the loop ends when the perplexity of all documents together improves by less than one, so the number of iterations depends on the other documents; row_violation exhibits two queries with a document in common that infer different weights for it, whatever the number of iterations from 23 on. Exact behaviour: the other documents matter only through the number of iterations carried out. It holds up to 22 iterations (sharp). (`sidetopics/model/ctm.py::query`)
* **C215** Element type options are read or refused. Violated by the code: whatever follows a second colon is accepted and ignored. Texts with at most one colon are read or refused as stated. (`sidetopics/run/__main__.py::parse_dtypes`, `sidetopics/run/__main__.py::parse_dtype`)
* **C217** Saved models never overwrite each other. Violated by the code: three pairs of modules share the name of their model. For models of the same name the files differ. (`sidetopics/run/__main__.py::newModelFile`, `sidetopics/run/__main__.py::save_model`)
* **C218** Held-out hashtags are removed from the query. Violated by the code: run calls the evaluation with proportion 0, so that nothing is removed and all scores of all models are 0; the parameter documented as the proportion to keep is the proportion removed. With proportion 1 the claim holds. (`sidetopics/run/__main__.py::hashtag_prec_rec`)
* **C219** Hashtag precision and recall are proportions. Violated by the code: counts above one are summed, which makes both scores as large as one likes. Holds if no document repeats a tag. (`sidetopics/run/__main__.py::hashtag_prec_rec`)
* **C221** The command line program evaluates the model asked for. Violated by the code: run passes prune_and_shuffle a keyword that it does not have, so that every run ends with TypeError before anything is trained. (`sidetopics/run/__main__.py::run`)
* **C222** Word lists hold each word as often as it was counted. Violated by the code: fractions of counts are cut off per word and replaced by word 0; a corpus of one document is refused with ValueError; a negative count makes the compiled code write outside its array. For whole counts of two or more documents the claim holds. (`sidetopics/model/lda_cvb0.py::toWordList`, `sidetopics/model/lda_cvb.py::toWordList`)
* **C225** The bound of the collapsed models adds the entropy. Violated by the code: the entropy is subtracted, which makes the bound worse by exactly twice the entropy; it is not a number when some probability is zero. With one topic the value is the log-evidence exactly. (`sidetopics/model/lda_cvb0.py::log_likelihood_expected`, `sidetopics/model/lda_cvb.py::var_bound`)
* **C226** Link weights of the relational model climb the regularised likelihood of the links. Violated by the code: the regulariser is added instead of subtracted while the weights decay with strength one, so the effective strength is one minus the one given; what the steps climb exactly is weights_direction. Agrees with the documentation for strength one half and no negative examples. (`sidetopics/model/rtm.py::_infer_weights`)
* **C227** A stronger regulariser of the link weights gives smaller weights. Violated by the code: a stronger regulariser moves every weight further from zero, for all data. regulariser_alone: without links, learned weights are a common multiple of the initial ones, above one when the strength is above one. (`sidetopics/model/rtm.py::_infer_weights`)
* **C229** Re-estimating the topic prior of the relational model raises the likelihood of the topic counts. Violated by the code: the digamma function of the entry instead of the sum is subtracted in the denominator, so that every update makes every entry of the prior smaller whatever the counts are; for documents that use two topics equally the likelihood falls for every initial prior. (`sidetopics/model/rtm.py::_updateTopicHyperParamsFromMeans`)
* **C231** The bound of the relational model never exceeds the evidence. Violated by the code: the probability of links is taken at the mean topics instead of averaging its logarithm, and the probit function is not concave there; with the default prior and two linked documents the value exceeds the evidence. Without links it is a bound. (`sidetopics/model/rtm.py::var_bound`)
* **C233** The careful logarithms of one plus a number are accurate. Violated by the code: below -0.375 the rational approximation is used outside its interval, and its error has no limit. From -0.375 on the absolute error is at most 2E-11; the logarithm of one plus an exponential is accurate everywhere. Exact arithmetic; rounding is not modelled. (`sidetopics/util/overflow_safe.py::safe_log_one_plus`, `sidetopics/util/overflow_safe.py::_very_safe_log_one_plus_exp_of`)
* **C234** The entropy of a product of distributions is the entropy of its terms. Violated by the code: a single zero makes the result NaN, and for every element type other than the two floating ones the logarithm of the wrong element is taken, with an IndexError when there are more documents than topics. For positive entries in the compiled code the claim holds. (`sidetopics/util/sparse_elementwise.py::entropyOfDot`, `sidetopics/util/sparse_elementwise.py::entropyOfDot_py`)
* **C235** The buffer given to a sparse kernel receives the result. Violated by the code: in double precision over all rows the logarithmic product ignores out. The quotient, and the logarithmic product in single precision, write and return it. (`sidetopics/util/sparse_elementwise.py::sparseScalarQuotientOfDot`, `sidetopics/util/sparse_elementwise.py::sparseScalarProductOfSafeLnDot`)
* **C236** Sparse kernels accept whole numbers. Violated by the code: quotients and logarithmic products of integer matrices, and products with floating matrices, always raise. Only the product of integer matrices works. (`sidetopics/util/sparse_elementwise.py::sparseScalarProductOfDot`, `sidetopics/util/sparse_elementwise.py::sparseScalarQuotientOfDot`, `sidetopics/util/sparse_elementwise.py::sparseScalarProductOfSafeLnDot`)
* **C237** Titles of results round trip. Violated by the code: a space in the name moves every part by one. Holds for names and numbers of topics without spaces and without commas at their ends. (`sidetopics/run/reshape_results.py::from_file_entry`, `sidetopics/run/reshape_results.py::__str__`)
* **C238** Files of results are read completely. Violated by the code: the line after an entry is dropped whatever it is, so that the title of an entry that follows directly is lost, and a blank line instead of the last score ends the file. With a line between entries everything is read. (`sidetopics/run/reshape_results.py::read_all_results`, `sidetopics/run/reshape_results.py::read_next_result_batch`, `sidetopics/run/reshape_results.py::skip_to_non_empty_line`)
* **C239** A paper that cannot be read does not stop the others. Violated by the code: a line without a colon raises IndexError, which ends the run for all papers after it. Files which end in ValueError are skipped; splitting of names is an arbitrary function. (`sidetopics/run/arxiv_to_aan.py::run_on_dirs`, `sidetopics/run/arxiv_to_aan.py::read_paper_metadata`, `sidetopics/run/arxiv_to_aan.py::read_next_key_value`)
* **C240** Names are converted with the family name first. Violated by the code: of two words the last is always the family name, even a title, and a single word that ends in a dot leaves an empty family name. All longer names are converted as stated. (`sidetopics/run/arxiv_to_aan.py::bibtex_to_acl_author`)
* **C242** Matrices in text files are converted exactly. Violated by the code: unless the first line has a decimal point all fractions are cut off; a line of one number fills its row; the sparse conversion drops negative numbers and fills short lines with zeros. Exact for equally long lines when the first has a decimal point or all numbers are whole (sparse: and none is negative). (`sidetopics/run/text_to_numpy.py::save_as_numpy`, `sidetopics/run/text_to_numpy.py::save_as_numpy_sparse`)
* **C243** A copied model shares no array with the original. Violated by the code: mom_em and mom_gibbs share the topic prior, mtm the topic covariance, and every module a word prior that is an array (copy_shares: a write to a shared array is seen through both). All other fields of all modules are independent. (`sidetopics/model/ctm.py::newModelFromExisting`, `sidetopics/model/mom_em.py::newModelFromExisting`, `sidetopics/model/mom_gibbs.py::newModelFromExisting`)
* **C244** A copied model looks like the original. Violated by the code: lda_cvb copies counts in place of variances. In all other modules the copy has equal contents. (`sidetopics/model/lda_cvb.py::newModelFromExisting`, `sidetopics/model/lda_gibbs.py::newModelFromExisting`, `sidetopics/model/stm_yv.py::newModelFromExisting`)
* **C245** A fitted wrapper can be copied. Violated by the code: every copy raises TypeError because the kind of model is not passed on. (`sidetopics/model/sklearn/lda_cvb.py::TopicModel.copy`)
* **C246** Changing a copied dataset leaves the original alone. Violated by the code: deep copies always raise TypeError, and converting the links of a shallow copy to zeros and ones overwrites the links of the original. All other conversions make new matrices. (`sidetopics/model/common.py::DataSet.copy`, `sidetopics/model/common.py::DataSet.copy_with_changes`, `sidetopics/model/common.py::DataSet.convert_to_binary_link_matrix`)
* **C247** The wrapped LDA can be made with every batch size. Violated by the code: every batch size other than zero raises TypeError, because the offset of the learning rate is passed under a name that scikit-learn does not know. (`sidetopics/model/sklearn/lda_cvb.py::WrappedSckitLda.__init__`)
* **C249** Scores of wrapped models are log-likelihoods of the words. Violated by the code: words counted in integers always raise, a query state is refused although documented, and expected scores are not implemented. For floating point words of one type the four point scores are as stated. (`sidetopics/model/sklearn/lda_cvb.py::WrappedSckitLda.score`, `sidetopics/model/sklearn/lda_cvb.py::WrappedScikitHdp.score`, `sidetopics/model/sklearn/lda_cvb.py::WrappedScikitHdp.components_`)
* **C250** Likelihoods of linked documents include the links. Violated by the code: rtm and mtm leave the links out, self_lda counts the words a second time as links, and mtm2 and mtm3 index the table of link targets by topic and document the wrong way round, which reads outside the table for most corpora. Without links mtm2 and mtm3 are as stated. (`sidetopics/model/rtm.py::log_likelihood`, `sidetopics/model/mtm.py::log_likelihood`, `sidetopics/model/self_lda_vb_python.py::log_likelihood`)
* **C251** The point likelihood of mixtures is that of a mixture. Violated by the code: mom_gibbs mixes the topics for every word, as LDA does, instead of for every document. mom_em is as stated with weights floored at 1E-300; mom_gibbs when every document has one topic. (`sidetopics/model/mom_em.py::log_likelihood_point`, `sidetopics/model/mom_gibbs.py::log_likelihood_point`)
* **C252** The bounds of matrix topic models never exceed the evidence. Violated by the code in all three modules: mtm starts with a positive bound for a corpus of probability one, mtm2 leaves out the links, and the bounds of mtm2 and mtm3 exceed the evidence by any amount. With the explicit gaps added, mtm2 and (without links) mtm3 stay below the evidence. (`sidetopics/model/mtm.py::var_bound`, `sidetopics/model/mtm2.py::var_bound`, `sidetopics/model/mtm3.py::var_bound`)
* **C253** Priors learnt while sampling never worsen the fit to the topics. Violated by the code: one empty document makes the whole prior NaN, and the denominator starts from memory that is not initialised, so a step may return any number. If it starts from zero and there is no empty document, a step (without the constant added to it) never lowers the leave-one-out likelihood. (`sidetopics/model/lda_gibbs_fast.pyx::infer_hyperparams`, `sidetopics/model/dmr_fast.pyx::infer_hyperparams`)
* **C254** Querying a sampler leaves its topic prior alone. Violated by the code: with the re-estimation switched on, a query of ten or more samples changes the prior of the model, to NaN if one of its documents is empty. Unchanged with the switch off, or with fewer samples. (`sidetopics/model/lda_gibbs_fast.pyx::sample`, `sidetopics/model/lda_gibbs.py::query`)
* **C255** Topic priors may be numbers or vectors and every topic gets its own. Violated by the code: the collapsed models use the mean of the vector for every topic, and several models fail with numbers; topic_partial lists what works. (`sidetopics/model/lda_cvb.py::train`, `sidetopics/model/lda_cvb0.py::train`, `sidetopics/model/lda_vb.py::newModelAtRandom`)
* **C256** Vocabulary priors may be numbers or vectors. Violated by the code: vectors fail in the variational and collapsed models and numbers in the regression model; vocab_partial lists what works. (`sidetopics/model/lda_gibbs.py::newModelAtRandom`, `sidetopics/model/dmr.py::newModelAtRandom`, `sidetopics/model/lda_cvb.py::train`)
* **C257** The invented negative examples are typical pairs of documents. Violated by the code: the sum of the prior is divided by once instead of twice. Correct if the prior sums to one. (`sidetopics/model/rtm.py::_infer_weights`)
* **C258** The vocabulary prior of the command line is the vocabulary prior of the model. Violated by the code: the variational topic models take it as the prior of the topics and most others ignore it; reaches the correlated and the feature models. (`sidetopics/run/__main__.py::run`)
* **C259** The options for training reach the plan. Violated by the code: the log frequency and the smallest change of the bound are never passed on. The iterations and the debug switch are, and the options of gradient descent to the stochastic model. (`sidetopics/run/__main__.py::run`)
* **C260** Debugging can be switched off. Violated by the code: every text but the empty one switches debugging on. (`sidetopics/run/__main__.py::run`)
* **C262** A topic model trained before is used in every evaluation of links. Violated by the code: never used when links are split, and the evaluation on other documents fails without one or with a variational one. used_partial lists where it is used. (`sidetopics/run/__main__.py::link_split_prec_rec`, `sidetopics/run/__main__.py::subsetLda`, `sidetopics/model/mtm3.py::lda_vocab`)
* **C264** A fresh query state is not marked as processed. Violated by the code: the variational implementation stores the debug switch in the mark. Correct without debugging and in the sampling implementation. (`sidetopics/model/lda_vb_python.py::newQueryState`, `sidetopics/model/sim_based_rec.py::train`)
* **C265** The tolerance of the plan decides when training stops. Violated by the code: nineteen of the twenty-one loops never read the tolerance. lda_vb and lda_svb do (exact rule); a smaller tolerance never stops sooner anywhere. (`sidetopics/model/ctm.py::train`, `sidetopics/model/lda_vb.py::train`, `sidetopics/model/rtm.py::train`)
* **C266** Training stops early only after little change. Violated by the code: eight loops stop whenever the perplexity rises, and three leave out the newest measurement. Holds for the five loops that compare the absolute change, and for the eight while the perplexity falls. (`sidetopics/model/lda_cvb0.py::train`, `sidetopics/model/stm_yv_bohning.py::train`, `sidetopics/model/rtm.py::train`)
* **C268** The bound of the topic model with features is below the evidence. Violated by the code: the logarithm of the determinant of the covariance enters the bound with the wrong factor for the features and factors, so the bound has no upper limit, and one of the implementations always returns zero. The part of the bound about the documents, corrected by the gaps, is below the evidence. (`sidetopics/model/stm_yv_bohning.py::var_bound`, `sidetopics/model/stm_yv.py::var_bound`, `sidetopics/model/stm_yv_bohning_fake_online.py::var_bound`)
* **C271** Query steps with features improve the bound as far as they can. Violated by the code: `_deriveXi` uses the square of the variance where the variance belongs, so the coefficients are the best ones exactly when all variances are one. Weights and variances are the best ones. (`sidetopics/model/stm_yv.py::query`, `sidetopics/model/ctm.py::_deriveXi`)
* **C272** Training steps with features set the weights of documents to their best values. Violated by the code: the first iteration reads the coefficients of a fresh query state as twice their size, so in every document with words better variances exist; and the coefficients it leaves are the best ones only when all variances are one. In later iterations weights and variances are the best ones. (`sidetopics/model/stm_yv.py::train`, `sidetopics/model/stm_yv.py::newQueryState`, `sidetopics/model/ctm.py::negJakkolaOfDerivedXi`)
* **C273** The bound of the mixture sampler never exceeds the evidence. Violated by the code: the logarithms of words and memberships are multiplied, so that the bound is never negative, and it exceeds the evidence for every trained model of two or more topics. The exact value is given: only the topics that a document is not in enter. (`sidetopics/model/mom_gibbs.py::var_bound`, `sidetopics/model/mom_gibbs.py::train`)
* **C274** Counts of topics in long documents are exact or refused. Violated by the code: query accepts documents of 65,536 words or more, whose counts wrap around; training refuses them. The counts are exact up to multiples of 65,536, hence exact for shorter documents. (`sidetopics/model/dmr.py::train`, `sidetopics/model/dmr.py::query`, `sidetopics/model/dmr_fast.pyx::sumSuffStats`)
* **C275** A reported fall of the bound is a fall. Violated by the code: falls by less than one are not reported, the first update is compared with zero or with the training before, and ctm.py shows the negated change. later_falls_partial: after the first update a report means a fall. (`sidetopics/model/ctm.py::_debug_with_bound`, `sidetopics/model/ctm_bohning.py::_debug_with_bound`, `sidetopics/model/mtm2.py::_debug_with_bound`)
* **C276** Numbers that are not probabilities are not stored as topic assignments. Violated by the code: the check accepts -0.1..1.1, not the documented range; when it fails the function prints a message and returns in the middle of a token, and train returns the model without an error; and the single precision second-order function has its check commented out. stays_within_partial: the other functions never store a number outside -0.1..1.1. (`sidetopics/model/lda_cvb0_fast.pyx::iterate_f64`, `sidetopics/model/lda_cvb0_fast.pyx::is_invalid_prob_f64`, `sidetopics/model/lda_cvb_fast.pyx::iterate_f32`)
* **C277** The estimates of the feature-driven sampler are distributions. Violated by the code for documents whose features give negative priors: the sampler uses the product of features and weights itself as the prior, not its exponential. Proved for the words, and for the topics of documents whose priors stay positive. (`sidetopics/model/dmr.py::train`, `sidetopics/model/dmr.py::topicDists`, `sidetopics/model/dmr.py::wordDists`)
* **C278** Querying the feature-driven sampler preserves its word distributions. Violated by the code: query returns the sum over the samples of training with the number of samples of the query, so that the distributions are multiplied by the quotient of the two numbers. They are preserved exactly if the numbers are equal, which the default plans rule out. (`sidetopics/model/dmr.py::query`, `sidetopics/model/dmr.py::wordDists`)
* **C279** Likelihoods of the recommenders are those of the words under their topics. Violated by the code for the TF-IDF method: the log-likelihood 0 is reported for every corpus, that is a perplexity of one, below that of every model that is not certain of all words. For topics, and for the offset model, the claim holds in exact arithmetic. (`sidetopics/model/sim_based_rec.py::log_likelihood`, `sidetopics/model/sim_based_rec.py::train`, `sidetopics/model/lro_vb.py::log_likelihood`)
* **C280** The seed of a wrapper decides its random numbers. Violated by the code for the Gibbs sampler: lda_gibbs.seed_rng ignores its argument and seeds both generators with 0xC0FFEE, undoing the seed that __setattr__ has just given to numpy, so that all seeds give the same model. For the other kinds numpy's generator starts from the given seed; reproducibility of a new wrapper that is fitted at once holds for all kinds. (`sidetopics/model/sklearn/lda_cvb.py::TopicModel.__setattr__`, `sidetopics/model/lda_gibbs.py::seed_rng`, `sidetopics/model/lda_gibbs_fast.pyx::initGlobalRng`)
* **C281** Wrappers with the same seed fit the same model. Violated by the code: the seed is applied to generators shared by the whole process when it is assigned, not when fit is called, so that of two wrappers made with the same seed the second starts from the numbers that the first has left. Assigning the seed again just before the call makes the claim true. (`sidetopics/model/sklearn/lda_cvb.py::TopicModel.__init__`, `sidetopics/model/sklearn/lda_cvb.py::TopicModel.fit`, `sidetopics/model/dmr.py::train`)
* **C283** The settings given to a wrapper are the ones it uses. Violated by the code for zero: a tolerance of zero becomes 0.1 and zero query iterations become a tenth of the iterations, because the constructor uses `or`. Proved for all other settings. (`sidetopics/model/sklearn/lda_cvb.py::TopicModel.__init__`)
* **C284** Changing a parameter is the same as constructing with it. Violated by the code: a new number of iterations leaves the number of query iterations that followed from the old one; a member of TopicModelType, which the constructor takes, makes every later call fail with a KeyError; an unknown kind is accepted. set_partial: proved for all other changes. (`sidetopics/model/sklearn/lda_cvb.py::TopicModel.__init__`, `sidetopics/model/sklearn/lda_cvb.py::TopicModel.__setattr__`)
* **C285** Topics that start from documents prefer their words. Violated by the code for corpora without words: the sampling of lda_vb_python, mom_em and mom_gibbs never ends, and mtm starts with weights of zero. The exact weights are proved for all other cases. (`sidetopics/model/rtm.py::newModelAtRandom`, `sidetopics/model/self_lda_vb_python.py::newModelAtRandom`, `sidetopics/model/mtm.py::newModelAtRandom`)
* **C286** Initial topics have the scale of inferred ones. Violated by the code for mtm: the weights already include a one for each word and the counts of a document before they are multiplied by the words per topic, so they add up to the words of the corpus times the size of the vocabulary and more. (`sidetopics/model/mtm.py::newModelAtRandom`, `sidetopics/model/mtm2.py::newModelAtRandom`, `sidetopics/model/mtm3.py::newModelAtRandom`)
* **C287** No two topics start alike. Violated by the code: documents are drawn with replacement, so with more topics than documents two topics always start alike. Topics are alike exactly if the drawn documents have the same words (rtm, self_lda, mtm). (`sidetopics/model/rtm.py::newModelAtRandom`, `sidetopics/model/self_lda_vb_python.py::newModelAtRandom`, `sidetopics/model/mtm.py::newModelAtRandom`)
* **C289** Wrapped models report the parameters they were made with. Violated by the code: the constructors keep hardly any of their arguments, so get_params raises an AttributeError for every object (scikit-learn before 0.24 gives None for the missing ones instead). Exactly the arguments listed in kept are reported. (`sidetopics/model/sklearn/lda_cvb.py::WrappedSckitLda.__init__`, `sidetopics/model/sklearn/lda_cvb.py::WrappedScikitHdp.__init__`)
* **C290** Priors given to a wrapped model have an effect. Violated by the code for the HDP: doc_topic_prior and topic_word_prior are dropped. Proved for the LDA of scikit-learn without mini-batches. (`sidetopics/model/sklearn/lda_cvb.py::WrappedSckitLda.__init__`, `sidetopics/model/sklearn/lda_cvb.py::WrappedScikitHdp.__init__`)
* **C291** The dictionary for gensim has every word of the vocabulary. Violated by the code: the dictionary ends with the last word that occurs, and the tokens are plain numbers rather than the documented names. The counts are proved for all datasets. (`sidetopics/model/common.py::DataSet.gensim_dictionary`)
* **C292** The documented models can be reported. Violated by the code: the underscore before the bound is not removed, so all four documented names are refused with ValueError. What is accepted is the model alone or directly followed by the bound; without latent sizes the model with features ends in UnboundLocalError. (`sidetopics/run/report_generator.py::run`)
* **C293** A report covers exactly the saved folds of its model. Violated by the code: topic models are saved with _p_0 in the name, which no report pattern has, so none of their files is ever found; folds from 10 on are not found either, and files with anything appended to the name count as folds. Digits of other scripts are not modelled. (`sidetopics/run/report_generator.py::_generate_report`, `sidetopics/run/__main__.py::newModelFile`, `sidetopics/run/__main__.py::save_model`)
* **C294** Every configuration has its own report and its own count. Violated by the code: a template that cannot be filled ends the generation of all reports with an exception instead of counting zero folds. Otherwise counts and reports are exact. The default template directory, reading and writing are not modelled. (`sidetopics/run/report_generator.py::generate_reports_ctm`, `sidetopics/run/report_generator.py::generate_reports_stm_yv`, `sidetopics/run/report_generator.py::_generate_report`)
* **C296** The exported table of results is read back. Violated by the code: quotes in names and descriptions are escaped twice and come back doubled. The rest of the table is read back exactly. The text of numbers is an arbitrary function without commas, quotes and newlines. (`sidetopics/run/reshape_results.py::write_all_results`, `sidetopics/run/reshape_results.py::to_delim_str`)
* **C297** Printed tables of scores can be read back. Violated by the code: a table is printed and cannot be read (division by zero) if no document has five links or more. Otherwise the table is read back to the digits printed. float() is an arbitrary function which reads decimal fractions without sign as their values; rounding to floating point is not modelled, and scores are not negative. (`sidetopics/run/__main__.py::printTable`, `sidetopics/run/reshape_results.py::read_table`, `sidetopics/run/reshape_results.py::read_perplexity`)
* **C298** The exported results of a run are those of all its folds. Violated by the code: the tables and the perplexity exported are those of the first fold, while reciprocal rank and average precision are those of all folds. With a single fold all of them agree. (`sidetopics/run/__main__.py::cross_val_and_eval_tag_prec_rec_at_m`, `sidetopics/run/reshape_results.py::read_next_result_batch`, `sidetopics/run/reshape_results.py::read_all_results`)
* **C299** Queried documents are characterised by their words alone. Violated by the code: the out-links are counted as tokens which no topic explains (emit_counts, mtm3.py:521), so that documents with other numbers of links always get other weights. Only the numbers of links matter. Exact inverses in place of la.inv. (`sidetopics/model/mtm3.py::query`)
* **C301** No topic is treated differently from the others. Violated by the code for the correlated topic model: the weights of the first topic are subtracted in every iteration, so its mean is zero and its prior variance is not estimated like the others. Proved for the other models, and for the correlated topic model if the first topic stays the first. (`sidetopics/model/mom_em.py::train`, `sidetopics/model/lda_vb_python.py::train`, `sidetopics/model/lda_vb.py::train`)
* **C303** Training can be interrupted and continued. Violated by the code for online LDA in Python: the second stage begins again with the large steps of the first. Proved for EM (with early stops), the correlated topic model, the Böhning model and batch LDA in Python. For compiled LDA it is proved if the log frequency divides both numbers of iterations; otherwise the model is measured, which normalises it, after other iterations, and nothing is proved. (`sidetopics/model/mom_em.py::train`, `sidetopics/model/lda_vb_python.py::train`, `sidetopics/model/lda_vb.py::train`)
* **C308** Scores of predicted links do not depend on the numbers of the documents. Violated by the code: links with equal scores are ranked by their numbers, and however they are ranked, two corpora that differ in the numbers only have different scores (1 and 1/2). Proved for documents without equal scores; rows hold every number once, cut-offs are positive and every document has a group. (`sidetopics/model/evals.py::mean_average_prec`, `sidetopics/model/evals.py::mean_reciprocal_rank`, `sidetopics/model/evals.py::mean_prec_rec_at`)
* **C310** Training a model of links can be interrupted. Violated by the code except in mtm2: mtm3 begins every stage with variances of the in-links of one; mtm computes the maxima of the topics anew and keeps the sums of exponentials that belong to other maxima, if all weights of a topic are below 1e-300; rtm counts the iterations from zero, so stages of five iterations never learn the topic prior. Proved for mtm if every topic has a document with a weight of at least 1e-300, and for rtm with at most five iterations in all; the numerical routines of rtm are arbitrary functions of the state, and those results are equal within the sizes of the tables. (`sidetopics/model/mtm.py::train`, `sidetopics/model/mtm2.py::train`, `sidetopics/model/mtm3.py::train`)
* **C312** Without truncation every evaluation runs all folds. Violated by the code: the default -1 is passed on as the number of folds, so the evaluations of tags, hashtags and precision and recall of links run no fold and end with AttributeError. The other three run all folds. With a single fold, the default of --folds, only the perplexity is evaluated. (`sidetopics/run/__main__.py::run`, `sidetopics/run/__main__.py::cross_val_and_eval_tag_prec_rec_at_m`, `sidetopics/run/__main__.py::link_split_prec_rec`)
* **C313** Truncated evaluations run the first folds, and never more than there are. Violated by the code: the truncation is not passed to the average precision of links, the second part of the evaluation of hashtags ignores it, precision and recall of links run more folds than there are, and the evaluation of tags fails after the last fold. Proved for perplexity and the evaluation in training documents, and for the others up to the number of folds. (`sidetopics/run/__main__.py::run`, `sidetopics/run/__main__.py::link_split_map`, `sidetopics/run/__main__.py::link_split_prec_rec`)
* **C317** Words that occur in no document keep the weight of their prior. Violated by the code in the collapsed models of zero and of second order, whose word_dists divide the counts by their sum and leave the prior out: a word that does not occur has probability zero after training, whatever the prior (cvb0_unseen_violation, cvb2_unseen_violation). Holds for the correlated topic model, with Böhning's bound too, the model with features stm_yv, the third matrix topic model, mixtures (unless the first iteration already finds nothing to change), both implementations of variational Bayes (in Python without batches) and Gibbs sampling. Not stated for the other models with a table of counts. (`sidetopics/model/mom_em.py::train`, `sidetopics/model/lda_vb_python.py::train`, `sidetopics/model/lda_vb.py::train`)
* **C318** Documents without words are refused or get the topics that are expected beforehand. Violated by the code in queries of variational Bayes, which add the number of documents divided by the number of topics to the prior: with the prior (1, 2) an empty document among three gets the topics (5/12, 7/12) (lda_empty_violation, lda_empty_exact). The topics are those of the prior only if it is the same for all topics (lda_empty_iff). Gibbs sampling gives the normalised prior, in training and in queries; a mixture gives the weights of its classes in queries; training of mixtures, of variational Bayes in Python, of the collapsed model and of the first matrix topic model refuses such documents. Queries of the correlated topic model give the mean of the prior (query_proper), and so does the model with Böhning's bound in its accurate mode; in its fast mode it returns the softmax of the weights given (bohning_fast_empty_violation). Not stated for the models with features or links. (`sidetopics/model/mom_em.py::train`, `sidetopics/model/mom_em.py::query`, `sidetopics/model/lda_vb_python.py::train`)
* **C319** Features that no document has. Violated by the code in stm_yv_bohning, which fits the weights by least squares without the prior and never updates the factors: the weight is zero whatever the factors are (lsq_unused_violation, lsq_unused_exact, for any solver that returns the shortest solution as NumPy's does). Holds in stm_yv and stm_uv_vecy_bohning with an exact inverse, where the weights are the product of the factors after every iteration, and in the topic model with features on the priors for weights that minimise the objective; that the optimiser of SciPy finds a minimum is not modelled. Queries do not depend on weights of features that no queried document has. (`sidetopics/model/stm_yv.py::train`, `sidetopics/model/stm_yv.py::query`, `sidetopics/model/stm_uv_vecy_bohning.py::train`)
* **C321** Documents without expected links do not enter the scores of predicted links. Violated by the code in the mean average precision, which leaves documents without expected links out of the sum but divides by the number of all documents: it is the score of the other documents multiplied with their share of the corpus (map_unlinked_exact), so that a perfect prediction scores less than one (map_unlinked_violation). Which of two predictions scores higher is not affected (map_order_partial). Holds for the mean reciprocal rank and for precision and recall. (`sidetopics/model/evals.py::mean_average_prec`, `sidetopics/model/evals.py::mean_reciprocal_rank`, `sidetopics/model/evals.py::mean_prec_rec_at`)
* **C322** The likelihoods of the parts of a corpus add up. Violated by the code in the expected log-likelihood of mixtures, which raises an IndexError for a part with a single document (expected_single_violation) and adds up otherwise (expected_parts_partial). Holds for the correlated topic models, the models with features, LDA, the recommenders, the mixtures' point log-likelihoods, the relational topic model and the first matrix topic model. The other matrix topic models and the self-linked LDA are not covered, because the probabilities of their links depend on all documents. (`sidetopics/model/ctm.py::log_likelihood`, `sidetopics/model/lda_vb_python.py::log_likelihood`, `sidetopics/model/rtm.py::log_likelihood`)
* **C324** Predicting an expected link never lowers the scores. Violated by the code in the mean reciprocal rank, which averages over the expected links that were predicted only: predicting a second, lower ranked expected link lowers it from 1 to 3/4 (mrr_found_violation). The score times the number n of expected links that are predicted never falls, so that it is lowered by a factor of n/(n+1) at most (mrr_found_partial). Holds for mean average precision (map_found) and for precision and recall (prec_rec_found), for links stored once with scores of their own. (`sidetopics/model/evals.py::mean_average_prec`, `sidetopics/model/evals.py::mean_reciprocal_rank`, `sidetopics/model/evals.py::mean_prec_rec_at`)
* **C327** No prediction scores higher than a perfect one. Violated by the code in the mean reciprocal rank, where each of n expected links counts with its own rank: a perfect prediction of two or more links in a document scores below one, and predicting only one of them scores one (mrr_perfect_violation). The score of a perfect prediction is the mean of 1, 1/2, ..., 1/n (mrr_perfect_exact), and is the highest among predictions that contain all expected links (mrr_best_partial). Holds for precision and recall (prec_rec_best) and for mean average precision (map_best). (`sidetopics/model/evals.py::mean_average_prec`, `sidetopics/model/evals.py::mean_reciprocal_rank`, `sidetopics/model/evals.py::mean_prec_rec_at`)
