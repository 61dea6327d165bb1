{
 "claims": [
  {
   "property": "C01",
   "status": "proved",
   "theorems": [
    "Verif.Props.CrossVal.crossValid_partition",
    "Verif.Props.CrossVal.crossValid_rejects"
   ],
   "note": ""
  },
  {
   "property": "C02",
   "status": "proved",
   "theorems": [
    "Verif.Props.CrossVal.every_document_held_out",
    "Verif.Props.CrossVal.held_out_exactly_once_iff",
    "Verif.Props.CrossVal.held_out_twice_otherwise",
    "Verif.Props.CrossVal.timesHeldOut_exact",
    "Verif.Props.CrossVal.folds_overlap_witness"
   ],
   "note": ""
  },
  {
   "property": "C03",
   "status": "proved",
   "theorems": [
    "Verif.Props.DataSetSplit.crossValidSplit_aligned",
    "Verif.Props.DataSetSplit.crossValidSplit_pyList",
    "Verif.Props.DataSetSplit.crossValidSplit_single"
   ],
   "note": "Holds for every dataset whose split succeeds; datasets with a Python list of categories always raise a TypeError, a one-document dataset is rejected."
  },
  {
   "property": "C04",
   "status": "proved",
   "theorems": [
    "Verif.Props.DocCompletion.completion_conserves_counts",
    "Verif.Props.DocCompletion.completion_with_features",
    "Verif.Props.CompletionParts.completion_share"
   ],
   "note": ""
  },
  {
   "property": "C05",
   "status": "partial",
   "theorems": [
    "Verif.Props.DocCompletion.estimated_negative_iff",
    "Verif.Props.DocCompletion.parts_in_range_partial",
    "Verif.Props.CompletionParts.completion_in_range_partial",
    "Verif.Props.DocCompletion.completion_negative_count"
   ],
   "note": "Violated by the code for large jitter: exact condition for a negative estimate, witness, and a sufficient range of jitters."
  },
  {
   "property": "C06",
   "status": "partial",
   "theorems": [
    "Verif.Props.DocCompletion.completion_with_minimum_partial",
    "Verif.Props.CompletionParts.completion_minimum_spec_partial",
    "Verif.Props.DocCompletion.completion_minimum_fails"
   ],
   "note": "Violated by the code: removing a document always raises a TypeError; when nothing is removed the minimum has no effect."
  },
  {
   "property": "C07",
   "status": "partial",
   "theorems": [
    "Verif.Props.LinkSplit.link_split_always_fails",
    "Verif.Props.LinkSplit.directed_split_partial",
    "Verif.Props.LinkSplit.directed_dataset_split_partial"
   ],
   "note": "Violated by the code: the slice bound is a float, so every call of link_prediction_split raises a TypeError. The partial theorems show what holds once the bound is an integer (floor division)."
  },
  {
   "property": "C08",
   "status": "partial",
   "theorems": [
    "Verif.Props.LinkSplit.link_split_always_fails",
    "Verif.Props.LinkSplit.symmetric_split_partial",
    "Verif.Props.LinkSplit.symmetric_split_doubles_diagonal"
   ],
   "note": "Violated by the code: every call raises a TypeError (float slice bound). With an integer bound the symmetric split is correct off the diagonal and doubles diagonal links."
  },
  {
   "property": "C09",
   "status": "proved",
   "theorems": [
    "Verif.Props.LinkSplit.folded_split_rows"
   ],
   "note": ""
  },
  {
   "property": "C10",
   "status": "partial",
   "theorems": [
    "Verif.Props.LinkSplit.folded_split_sum",
    "Verif.Props.LinkSplit.folded_split_no_leak_partial",
    "Verif.Props.LinkSplit.folded_split_leaks",
    "Verif.Props.LinkSplit.folded_dataset_split"
   ],
   "note": "The sum part is proved for all matrices; that a held-out link is not also in the training half holds only for rows above the minimum link count (violation witness)."
  },
  {
   "property": "C100",
   "status": "partial",
   "theorems": [
    "Verif.Props.Vb.topics_depend_on_corpus_size",
    "Verif.Props.Vb.query_row",
    "Verif.Props.Vb.topics_of_document_partial"
   ],
   "note": "Violated by the code: the number of documents enters every document's topics."
  },
  {
   "property": "C101",
   "status": "partial",
   "theorems": [
    "Verif.Props.Vb.word_out_of_context",
    "Verif.Props.Vb.not_stationary",
    "Verif.Props.Vb.stationary_partial"
   ],
   "note": "Violated by the code: the document's topics are reset before every round."
  },
  {
   "property": "C102",
   "status": "partial",
   "theorems": [
    "Verif.Props.Vb.bound_reads_garbage",
    "Verif.Props.Vb.bound_equal_lengths_partial",
    "Verif.Props.Vb.bound_equal_lengths_exact_partial"
   ],
   "note": "Violated by the code for documents of different lengths."
  },
  {
   "property": "C103",
   "status": "proved",
   "theorems": [
    "Verif.Props.Vb.query_single_step"
   ],
   "note": ""
  },
  {
   "property": "C104",
   "status": "partial",
   "theorems": [
    "Verif.Props.MomEm.em_logged",
    "Verif.Props.MomEm.em_empty_document",
    "Verif.Props.MomGibbs.gibbs_logged",
    "Verif.Props.MomEm.em_trains_partial"
   ],
   "note": "Violated by the code: an attribute and a name that do not exist are used when the likelihood is to be logged."
  },
  {
   "property": "C105",
   "status": "partial",
   "theorems": [
    "Verif.Props.MomEm.expected_with_query_fails",
    "Verif.Props.MomEm.expected_single_fails",
    "Verif.Props.MomEm.expected_without_query_partial"
   ],
   "note": "Violated by the code with assignments and for single documents."
  },
  {
   "property": "C106",
   "status": "proved",
   "theorems": [
    "Verif.Props.MomEm.expected_likelihood",
    "Verif.Props.MomEm.mixture_consistent"
   ],
   "note": ""
  },
  {
   "property": "C107",
   "status": "partial",
   "theorems": [
    "Verif.Props.MomGibbs.training_returns_last",
    "Verif.Props.MomGibbs.training_proper_partial"
   ],
   "note": "Violated by the code: the last state is returned and the accumulated samples are dropped."
  },
  {
   "property": "C108",
   "status": "partial",
   "theorems": [
    "Verif.Props.VbPython.algorithm_without_batches_fails",
    "Verif.Props.VbPython.only_batch_or_kappa",
    "Verif.Props.VbPython.plans_train_partial"
   ],
   "note": "Violated by the code: other algorithms than batch fail without a batch size, and amari and variance are never used."
  },
  {
   "property": "C109",
   "status": "proved",
   "theorems": [
    "Verif.Props.VbPython.batch_mass"
   ],
   "note": ""
  },
  {
   "property": "C11",
   "status": "proved",
   "theorems": [
    "Verif.Props.LinkSplit.folds_hold_out_once",
    "Verif.Props.LinkSplit.folds_disjoint"
   ],
   "note": ""
  },
  {
   "property": "C110",
   "status": "partial",
   "theorems": [
    "Verif.Props.VbPython.online_negative",
    "Verif.Props.VbPython.default_first_step",
    "Verif.Props.VbPython.online_positive_partial"
   ],
   "note": "Violated by the code when the first step is larger than one."
  },
  {
   "property": "C111",
   "status": "partial",
   "theorems": [
    "Verif.Props.VbPython.online_mass",
    "Verif.Props.VbPython.online_mass_violated",
    "Verif.Props.VbPython.online_mass_partial"
   ],
   "note": "Violated by the code: the gradient of a batch is not scaled to the corpus."
  },
  {
   "property": "C112",
   "status": "partial",
   "theorems": [
    "Verif.Props.VbPython.too_many_visits",
    "Verif.Props.VbPython.batch_visits_partial"
   ],
   "note": "Violated by the code with batches."
  },
  {
   "property": "C113",
   "status": "partial",
   "theorems": [
    "Verif.Props.Sklearn.zero_iterations_ignored",
    "Verif.Props.Sklearn.iterations_honoured_partial"
   ],
   "note": "Violated by the code for zero iterations."
  },
  {
   "property": "C114",
   "status": "partial",
   "theorems": [
    "Verif.Props.Sklearn.score_forgets",
    "Verif.Props.Sklearn.score_keeps_partial"
   ],
   "note": "Violated by the code without a representation: the persisted query state is forgotten."
  },
  {
   "property": "C115",
   "status": "partial",
   "theorems": [
    "Verif.Props.Sklearn.svb_never_fits",
    "Verif.Props.Sklearn.others_fit_partial"
   ],
   "note": "Violated by the code: the stochastic variational model can never be fitted."
  },
  {
   "property": "C116",
   "status": "partial",
   "theorems": [
    "Verif.Props.Sklearn.score_missing_functions",
    "Verif.Props.Sklearn.score_query_partial"
   ],
   "note": "Violated by the code: most modules lack functions that scoring calls."
  },
  {
   "property": "C117",
   "status": "proved",
   "theorems": [
    "Verif.Props.Sklearn.method_names"
   ],
   "note": "ASCII text."
  },
  {
   "property": "C118",
   "status": "partial",
   "theorems": [
    "Verif.Props.Sklearn.metrics_short",
    "Verif.Props.Sklearn.metrics_partial"
   ],
   "note": "Violated by the code for tuples of length zero and one."
  },
  {
   "property": "C119",
   "status": "partial",
   "theorems": [
    "Verif.Props.LinkPred.lda_exceeds_one",
    "Verif.Props.LinkPred.lda_not_probability",
    "Verif.Props.LinkPred.tfidf_probability_partial",
    "Verif.Props.LinkPred.rtm_probability_partial"
   ],
   "note": "Violated by the code for the LDA similarities, which exceed one unless the distributions are disjoint."
  },
  {
   "property": "C12",
   "status": "proved",
   "theorems": [
    "Verif.Props.Prune.prune_coherent_no_links",
    "Verif.Props.Prune.prune_links_largest"
   ],
   "note": ""
  },
  {
   "property": "C120",
   "status": "partial",
   "theorems": [
    "Verif.Props.LinkPred.lda_self_first",
    "Verif.Props.LinkPred.tfidf_self_best",
    "Verif.Props.LinkPred.self_dropped_partial"
   ],
   "note": "Violated by the code: documents score best against themselves and are kept."
  },
  {
   "property": "C121",
   "status": "partial",
   "theorems": [
    "Verif.Props.LinkPred.tfidf_depends_on_company",
    "Verif.Props.LinkPred.tfidf_company_partial"
   ],
   "note": "Violated by the code: document frequencies are those of the query corpus."
  },
  {
   "property": "C122",
   "status": "partial",
   "theorems": [
    "Verif.Props.LinkPred.no_predictor_for_all",
    "Verif.Props.LinkPred.predictor_callable_partial"
   ],
   "note": "Violated by the code: no predictor's signature fits all evaluations."
  },
  {
   "property": "C123",
   "status": "proved",
   "theorems": [
    "Verif.Props.Rtm.rtm_mass"
   ],
   "note": "At least one iteration that completes; what the weight and hyperparameter updates compute is arbitrary."
  },
  {
   "property": "C124",
   "status": "partial",
   "theorems": [
    "Verif.Props.Rtm.query_fails",
    "Verif.Props.Rtm.query_nothing_partial"
   ],
   "note": "Violated by the code: every query for one or more iterations raises a TypeError."
  },
  {
   "property": "C125",
   "status": "partial",
   "theorems": [
    "Verif.Props.Rtm.documented_priors_rejected",
    "Verif.Props.Rtm.query_state_rejected",
    "Verif.Props.Rtm.query_state_partial"
   ],
   "note": "Violated by the code for numbers and vectors of one value per topic."
  },
  {
   "property": "C126",
   "status": "partial",
   "theorems": [
    "Verif.Props.Rtm.predictions_asymmetric",
    "Verif.Props.Rtm.predictions_agree_partial"
   ],
   "note": "Violated by the code: the thresholds are per row."
  },
  {
   "property": "C127",
   "status": "proved",
   "theorems": [
    "Verif.Props.CtmTrain.train_proper",
    "Verif.Props.CtmTrain.iterate_proper",
    "Verif.Props.CtmTrain.empty_document"
   ],
   "note": "For runs of at least one iteration that complete (C136); the shrunk covariance is any function with a diagonal that is not negative."
  },
  {
   "property": "C128",
   "status": "proved",
   "theorems": [
    "Verif.Props.Ctm.vocab_update",
    "Verif.Props.Ctm.counts_conserved",
    "Verif.Props.Ctm.vocab_dist"
   ],
   "note": ""
  },
  {
   "property": "C129",
   "status": "proved",
   "theorems": [
    "Verif.Props.Ctm.topic_counts"
   ],
   "note": ""
  },
  {
   "property": "C13",
   "status": "proved",
   "theorems": [
    "Verif.Props.Prune.prune_links_largest",
    "Verif.Props.Prune.prune_set_shuffle_independent"
   ],
   "note": ""
  },
  {
   "property": "C130",
   "status": "proved",
   "theorems": [
    "Verif.Props.Ctm.vocab_monotone"
   ],
   "note": "Expectation-maximisation with a symmetric prior, at fixed topic weights."
  },
  {
   "property": "C131",
   "status": "proved",
   "theorems": [
    "Verif.Props.Ctm.words_dist",
    "Verif.Props.Ctm.likelihood_spec"
   ],
   "note": ""
  },
  {
   "property": "C132",
   "status": "partial",
   "theorems": [
    "Verif.Props.CtmTrain.random_row_dist",
    "Verif.Props.CtmTrain.sampling_ends_partial",
    "Verif.Props.CtmTrain.sampling_hangs_violation",
    "Verif.Props.CtmTrain.stop_row_spec"
   ],
   "note": "Violated by the code: the sampling never ends when all documents are empty, and the stop-word topic of ctm_bohning is zero for words that do not occur. Otherwise distributions, after at most a thousand draws when no document is empty."
  },
  {
   "property": "C133",
   "status": "proved",
   "theorems": [
    "Verif.Props.Bouchard.coefficient_spec",
    "Verif.Props.Bouchard.jaakkola"
   ],
   "note": ""
  },
  {
   "property": "C134",
   "status": "partial",
   "theorems": [
    "Verif.Props.Bouchard.bound_valid_partial",
    "Verif.Props.CtmTrain.bound_doubled_violation"
   ],
   "note": "Violated by the code: train doubles the coefficients, so the terms may exceed what they bound. Valid with the coefficients as defined, for every distribution. The value of var_bound as a whole is treated in C210."
  },
  {
   "property": "C135",
   "status": "partial",
   "theorems": [
    "Verif.Props.CtmTrain.jakkola_sign_violation",
    "Verif.Props.CtmTrain.neg_jakkola_consistent_partial"
   ],
   "note": "Violated by the code: jakkolaOfDerivedXi changes its sign when a document is given."
  },
  {
   "property": "C136",
   "status": "partial",
   "theorems": [
    "Verif.Props.CtmTrain.log_overflows",
    "Verif.Props.CtmTrain.log_short_violation",
    "Verif.Props.CtmTrain.log_off_violation",
    "Verif.Props.CtmTrain.log_divides_partial"
   ],
   "note": "Violated by the code: IndexError unless the log frequency divides the number of iterations or the run stops early; ZeroDivisionError for 0; ValueError for negative ones."
  },
  {
   "property": "C137",
   "status": "partial",
   "theorems": [
    "Verif.Props.CtmTrain.early_last_missing",
    "Verif.Props.CtmTrain.early_lengths_differ",
    "Verif.Props.CtmTrain.log_divides_partial",
    "Verif.Props.CtmTrain.log_overflows"
   ],
   "note": "Violated by the code: the last measurement is dropped, and three of the models return the likelihoods at their full length."
  },
  {
   "property": "C138",
   "status": "partial",
   "theorems": [
    "Verif.Props.Bohning.topicDists_violation"
   ],
   "note": "Violated by the code: an AttributeError for every query state."
  },
  {
   "property": "C139",
   "status": "partial",
   "theorems": [
    "Verif.Props.Bohning.query_fast_violation",
    "Verif.Props.Bohning.query_variances_violation",
    "Verif.Props.Bohning.query_accurate"
   ],
   "note": "Violated by the code in the fast mode: the softmax of the initial weights is returned whatever the words; the new variances are never returned. In the accurate mode the weights are those of the last iteration."
  },
  {
   "property": "C14",
   "status": "partial",
   "theorems": [
    "Verif.Props.Prune.reorder_fails_half_way",
    "Verif.Props.Prune.prune_fails_half_way",
    "Verif.Props.Prune.prune_not_atomic",
    "Verif.Props.Prune.reorder_total_partial"
   ],
   "note": "Violated by the code when categories are absent or the order is out of range; the exact half-way state is proved, and success for datasets with array categories."
  },
  {
   "property": "C140",
   "status": "partial",
   "theorems": [
    "Verif.Props.Bohning.bohning_identity_violation",
    "Verif.Props.Bohning.ctm_uncorrelated_violation",
    "Verif.Props.Bohning.ctm_variances_partial"
   ],
   "note": "Violated by the code: the covariance is the identity or diagonal."
  },
  {
   "property": "C141",
   "status": "proved",
   "theorems": [
    "Verif.Props.Bohning.curvature",
    "Verif.Props.Bohning.lse_bohning"
   ],
   "note": ""
  },
  {
   "property": "C142",
   "status": "proved",
   "theorems": [
    "Verif.Props.Bohning.accurate_monotone",
    "Verif.Props.Bohning.query_monotone",
    "Verif.Props.Bohning.step_monotone",
    "Verif.Props.Bohning.train_monotone"
   ],
   "note": "For an exact matrix inverse and a symmetric positive semidefinite inverse covariance; topics without zeros."
  },
  {
   "property": "C143",
   "status": "proved",
   "theorems": [
    "Verif.Props.Stm.uv_train_spec",
    "Verif.Props.Stm.uv_step_sorted"
   ],
   "note": "For stm_uv_vecy_bohning.py, in exact arithmetic; the matrix inverse is an arbitrary function."
  },
  {
   "property": "C144",
   "status": "partial",
   "theorems": [
    "Verif.Props.Stm.uv_exponentials_violation",
    "Verif.Props.Stm.uv_exponentials",
    "Verif.Props.Stm.yv_exponentials",
    "Verif.Props.Stm.uv_exponentials_partial"
   ],
   "note": "Violated by the code: the rows are in the order of the lengths. Right when the lengths are ascending."
  },
  {
   "property": "C145",
   "status": "partial",
   "theorems": [
    "Verif.Props.Stm.yv_order_violation",
    "Verif.Props.Stm.yv_first_vocab",
    "Verif.Props.Stm.yv_train_same_rows",
    "Verif.Props.Stm.yv_train_partial"
   ],
   "note": "Violated by the code in the first pass: the words are sorted, expMeans is not. Right (a refinement) when sorting does not move expMeans, e.g. ascending lengths; least squares is an arbitrary function of the set of rows."
  },
  {
   "property": "C146",
   "status": "partial",
   "theorems": [
    "Verif.Props.Stm.uv_shares",
    "Verif.Props.Stm.yv_shares_violation",
    "Verif.Props.Stm.yv_shares_partial"
   ],
   "note": "Holds for stm_uv_vecy_bohning.py. Violated by the first pass of stm_yv_bohning.py, which uses the raw counts; afterwards the quotients are those of the topics and the exponentials of the pass before."
  },
  {
   "property": "C147",
   "status": "proved",
   "theorems": [
    "Verif.Props.Stm.length_groups",
    "Verif.Props.Stm.length_groups_pure"
   ],
   "note": ""
  },
  {
   "property": "C148",
   "status": "proved",
   "theorems": [
    "Verif.Props.Stm.rescaled",
    "Verif.Props.Stm.inverse_unique"
   ],
   "note": "For an exact matrix inverse."
  },
  {
   "property": "C149",
   "status": "proved",
   "theorems": [
    "Verif.Props.Stm.query_step_means",
    "Verif.Props.Stm.query_step_monotone",
    "Verif.Props.Stm.query_monotone",
    "Verif.Props.Stm.query_variances"
   ],
   "note": "For an exact matrix inverse and a symmetric positive semidefinite inverse covariance; topics without zeros."
  },
  {
   "property": "C15",
   "status": "partial",
   "theorems": [
    "Verif.Props.DataSetSplit.limit_effect",
    "Verif.Props.DataSetSplit.limit_not_applied",
    "Verif.Props.DataSetSplit.limit_partial",
    "Verif.Props.DataSetSplit.limit_breaks_cross_validation"
   ],
   "note": "Violated by the code: the limit shortens the recorded order but not the dataset; exact effect, violation and the case where it does hold are proved."
  },
  {
   "property": "C150",
   "status": "partial",
   "theorems": [
    "Verif.Props.Stm.query_iterations_violation",
    "Verif.Props.Stm.query_iterations",
    "Verif.Props.Stm.query_iterations_partial"
   ],
   "note": "Violated by stm_yv_bohning.py: at least 100 iterations are allowed whatever the plan. Holds for the other two models and from 100 iterations on."
  },
  {
   "property": "C151",
   "status": "proved",
   "theorems": [
    "Verif.Props.StmModel.newA_optimal",
    "Verif.Props.StmModel.newY_optimal",
    "Verif.Props.StmModel.newV_optimal",
    "Verif.Props.StmModel.ridge_optimal"
   ],
   "note": "For an exact matrix inverse."
  },
  {
   "property": "C152",
   "status": "partial",
   "theorems": [
    "Verif.Props.StmModel.logged_bound_violation",
    "Verif.Props.StmModel.logged_bound",
    "Verif.Props.StmModel.logged_bound_partial"
   ],
   "note": "Violated by the code for dense features, where XTX and R_A are the same array. Holds for sparse features."
  },
  {
   "property": "C153",
   "status": "proved",
   "theorems": [
    "Verif.Props.Stm.yv_log_spec",
    "Verif.Props.Stm.yvLoop_spec",
    "Verif.Props.Stm.yv_log_off"
   ],
   "note": ""
  },
  {
   "property": "C154",
   "status": "partial",
   "theorems": [
    "Verif.Props.Stm.zero_iterations_violation",
    "Verif.Props.Stm.debug_violation",
    "Verif.Props.Stm.trained_covariance_partial"
   ],
   "note": "Violated by the code: UnboundLocalError and TypeError. From one iteration on the scaled covariance is returned."
  },
  {
   "property": "C155",
   "status": "partial",
   "theorems": [
    "Verif.Props.StmModel.online_violation",
    "Verif.Props.StmModel.online_partial"
   ],
   "note": "Violated by the code: with two different lengths a document is divided by zero in the first iteration. Holds when all lengths are equal. Modelled for the first iteration and up to one batch of documents."
  },
  {
   "property": "C156",
   "status": "partial",
   "theorems": [
    "Verif.Props.StmModel.dense_features_violation",
    "Verif.Props.StmModel.dense_features_partial"
   ],
   "note": "Violated by the code: an AttributeError."
  },
  {
   "property": "C157",
   "status": "partial",
   "theorems": [
    "Verif.Props.SingleDoc.single_document_violation",
    "Verif.Props.SingleDoc.lengths_partial"
   ],
   "note": "Violated by the code: np.squeeze removes the only dimension. Holds for any other number of documents."
  },
  {
   "property": "C158",
   "status": "partial",
   "theorems": [
    "Verif.Props.StmModel.measure_violation",
    "Verif.Props.StmModel.restored_spec",
    "Verif.Props.StmModel.measure_partial"
   ],
   "note": "Violated by the code: weights whose exponential underflows become minus infinity. Otherwise they are unchanged, in exact arithmetic."
  },
  {
   "property": "C159",
   "status": "proved",
   "theorems": [
    "Verif.Props.StmCov.covariance_optimal",
    "Verif.Props.StmCov.uv_covariance"
   ],
   "note": "In exact arithmetic, for positive variances."
  },
  {
   "property": "C16",
   "status": "proved",
   "theorems": [
    "Verif.Props.DataSetOps.categories_roundtrip",
    "Verif.Props.DataSetOps.categories_roundtrip_no_final_newline",
    "Verif.Props.DataSetOps.categories_accepted_iff"
   ],
   "note": ""
  },
  {
   "property": "C160",
   "status": "proved",
   "theorems": [
    "Verif.Props.StmCov.uv_train_improves",
    "Verif.Props.StmCov.uv_step_posterior",
    "Verif.Props.StmCov.uv_step_is_query",
    "Verif.Props.StmCov.uv_step_good"
   ],
   "note": "For stm_uv_vecy_bohning.py with the exact matrix inverse, whose existence is proved; good states have positive variances and topics without zeros, and training keeps them so."
  },
  {
   "property": "C161",
   "status": "partial",
   "theorems": [
    "Verif.Props.StmCov.yv_latent_violation",
    "Verif.Props.StmCov.uv_latent_partial"
   ],
   "note": "Violated by stm_yv_bohning.py, which returns Y, V and R_Y as given. In stm_uv_vecy_bohning.py Y and A are the best given V."
  },
  {
   "property": "C162",
   "status": "partial",
   "theorems": [
    "Verif.Props.StmCov.query_variance_violation",
    "Verif.Props.StmCov.uv_variance_violation",
    "Verif.Props.StmCov.query_variance_partial"
   ],
   "note": "Violated by the code for every number of topics and every document with words: the coefficient is (K-1)/K while the diagonal of the bound's matrix is K/(2(K+1)). Right for documents without words."
  },
  {
   "property": "C163",
   "status": "partial",
   "theorems": [
    "Verif.Props.Mtm.query_overwrites",
    "Verif.Props.Mtm.query_alters",
    "Verif.Props.Mtm.query_unchanged_partial",
    "Verif.Props.MtmTrain.query3_model_partial"
   ],
   "note": "Violated by mtm.py: query trains the word parameters of the model on the query corpus. Holds without iterations, and in mtm3.py, where only the out-weights and their variances change."
  },
  {
   "property": "C164",
   "status": "partial",
   "theorems": [
    "Verif.Props.Mtm.copy_shares_covariance",
    "Verif.Props.Mtm.copy_independent_partial"
   ],
   "note": "Violated by mtm.py, whose copies share the covariance. Holds for mtm2.py and mtm3.py."
  },
  {
   "property": "C165",
   "status": "proved",
   "theorems": [
    "Verif.Props.Mtm.train_word_counts",
    "Verif.Props.Mtm.word_counts"
   ],
   "note": "For an arbitrary digamma function and matrix inverse."
  },
  {
   "property": "C166",
   "status": "proved",
   "theorems": [
    "Verif.Props.Mtm.running_sums_train",
    "Verif.Props.Mtm.running_sums",
    "Verif.Props.Mtm.train_count"
   ],
   "note": ""
  },
  {
   "property": "C167",
   "status": "partial",
   "theorems": [
    "Verif.Props.Mtm.cov_asymmetric",
    "Verif.Props.Mtm.cov_formula",
    "Verif.Props.Mtm.cov_symmetric_partial"
   ],
   "note": "Violated by the code: the variances are added to every row instead of the diagonal. The exact formula is proved, and when it is symmetric."
  },
  {
   "property": "C168",
   "status": "partial",
   "theorems": [
    "Verif.Props.Mtm.first_shares_violation",
    "Verif.Props.Mtm.first_shares",
    "Verif.Props.Mtm.shares_partial",
    "Verif.Props.Mtm.shares_sum_partial"
   ],
   "note": "Violated by the code in the first iteration, where sums of unshifted exponentials divide shifted ones; holds from the second iteration on for the weights at its start."
  },
  {
   "property": "C169",
   "status": "partial",
   "theorems": [
    "Verif.Props.Mtm.link_topics_stale",
    "Verif.Props.Mtm.link_topics_iff_partial",
    "Verif.Props.Mtm.link_topics_initial"
   ],
   "note": "Violated by the code: the normalisers of the topics are those of the initial weights. Right initially, and exactly when they differ from the current ones by a common constant."
  },
  {
   "property": "C17",
   "status": "proved",
   "theorems": [
    "Verif.Props.DataSetOps.dropcols_agree",
    "Verif.Props.DataSetOps.dropcols_survivors",
    "Verif.Props.DataSetOps.dropcols_disagree_out_of_range"
   ],
   "note": ""
  },
  {
   "property": "C170",
   "status": "partial",
   "theorems": [
    "Verif.Props.Mtm.out_counts_violation",
    "Verif.Props.Mtm.out_counts_partial",
    "Verif.Props.Mtm.out_counts_total"
   ],
   "note": "Violated by the code, which adds incoming links. Right for symmetric links; the totals agree."
  },
  {
   "property": "C171",
   "status": "partial",
   "theorems": [
    "Verif.Props.Mtm.link_dists_violation",
    "Verif.Props.Mtm.link_dists_columns_partial"
   ],
   "note": "Violated by the code: the columns, not the rows, are distributions."
  },
  {
   "property": "C172",
   "status": "partial",
   "theorems": [
    "Verif.Props.Mtm.attributes_missing",
    "Verif.Props.Mtm.attributes_present_partial"
   ],
   "note": "Violated by the code: topicDists of mtm2.py and mtm3.py and link_probs of mtm.py read fields that do not exist; the others can be read."
  },
  {
   "property": "C173",
   "status": "proved",
   "theorems": [
    "Verif.Props.MtmLinks.links_complete",
    "Verif.Props.MtmLinks.scores_dist",
    "Verif.Props.MtmLinks.links_unlinked",
    "Verif.Props.MtmLinks.linkPair_eq",
    "Verif.Props.MtmLinks.linkAll_eq"
   ],
   "note": "In exact arithmetic; targets are documents of the training set."
  },
  {
   "property": "C174",
   "status": "partial",
   "theorems": [
    "Verif.Props.MtmTrain.train2_fails",
    "Verif.Props.MtmTrain.step2_ok_iff",
    "Verif.Props.MtmTrain.train2_completes_partial",
    "Verif.Props.MtmTrain.systems2"
   ],
   "note": "Violated by the code: fastButInaccurate, a single topic or a single document raise ValueError. Otherwise any number of iterations completes and every matrix inverted is positive definite, starting from positive variances and proper topics."
  },
  {
   "property": "C175",
   "status": "partial",
   "theorems": [
    "Verif.Props.MtmTrain.query2_fast",
    "Verif.Props.MtmTrain.query2_varcs",
    "Verif.Props.MtmTrain.query2_posterior_partial"
   ],
   "note": "Violated by the code: with fastButInaccurate the result is the softmax of the initial means whatever the words; the variances returned are those passed in. The weights of the accurate variant are at least as probable as the initial ones."
  },
  {
   "property": "C176",
   "status": "partial",
   "theorems": [
    "Verif.Props.MtmTrain.train3_ignores",
    "Verif.Props.MtmTrain.train3_resume_partial"
   ],
   "note": "Violated by the code, which replaces the covariances by 10 and 1. Continuing works exactly as one run if the in-covariances were one."
  },
  {
   "property": "C177",
   "status": "proved",
   "theorems": [
    "Verif.Props.MtmTrain.train3_good",
    "Verif.Props.MtmTrain.rounds_good",
    "Verif.Props.MtmTrain.systems3"
   ],
   "note": "With the exact matrix inverse; the initial variances are positive and the initial topics proper."
  },
  {
   "property": "C178",
   "status": "partial",
   "theorems": [
    "Verif.Props.MtmLinks.in_links_violation",
    "Verif.Props.MtmLinks.in_links_formula",
    "Verif.Props.MtmLinks.link_counts_partial"
   ],
   "note": "Violated by the code: for links into a document the topic is drawn from the target's weights instead of the source's; exact formula proved. Counts of out-links are the expected ones, and all counts sum to the numbers of links."
  },
  {
   "property": "C179",
   "status": "proved",
   "theorems": [
    "Verif.Props.MtmTrain.out_step3",
    "Verif.Props.MtmTrain.out_train3",
    "Verif.Props.MtmTrain.query_step3",
    "Verif.Props.MtmLinks.lse_linkA",
    "Verif.Props.MtmLinks.gain_step"
   ],
   "note": "With the exact matrix inverse."
  },
  {
   "property": "C18",
   "status": "proved",
   "theorems": [
    "Verif.Props.DataSetOps.undirected_spec",
    "Verif.Props.DataSetOps.binary_spec",
    "Verif.Props.DataSetOps.undirected_binary_idempotent",
    "Verif.Props.DataSetOps.binary_explicit_zero"
   ],
   "note": ""
  },
  {
   "property": "C180",
   "status": "partial",
   "theorems": [
    "Verif.Props.MtmTrain.in_means_violation",
    "Verif.Props.MtmTrain.in_means_fixed_iff_partial",
    "Verif.Props.MtmTrain.in_stationary_max",
    "Verif.Props.MtmTrain.means2_fixed_iff_partial"
   ],
   "note": "Violated by the code: coefficients of the sum over the other documents do not cancel. Optimal weights are kept exactly if for every topic with links the other documents' weights sum to zero; the same for mtm2.py."
  },
  {
   "property": "C181",
   "status": "proved",
   "theorems": [
    "Verif.Props.MtmTrain.vocab2_monotone",
    "Verif.Props.MtmTrain.vocab3_monotone"
   ],
   "note": ""
  },
  {
   "property": "C182",
   "status": "partial",
   "theorems": [
    "Verif.Props.Lro.scale_optimal_partial",
    "Verif.Props.Lro.last_step",
    "Verif.Props.Lro.stop_rule",
    "Verif.Props.Lro.self_link_not_optimal"
   ],
   "note": "Violated by the code if a document links to itself: its own pair is counted with the difference of the weights. Without self links the scale is the unique minimiser."
  },
  {
   "property": "C183",
   "status": "partial",
   "theorems": [
    "Verif.Props.Lro.offset_not_optimal",
    "Verif.Props.Lro.offset_closed_form",
    "Verif.Props.Lro.offset_unlinked",
    "Verif.Props.Lro.offset_optimal_partial"
   ],
   "note": "Violated by the code: the matrix is built from outer products with the document's own topics and the right hand side lacks the noise. Exact closed form proved. Optimal if the noise is one and all documents have the same topics."
  },
  {
   "property": "C184",
   "status": "proved",
   "theorems": [
    "Verif.Props.Lro.offsets_solvable"
   ],
   "note": ""
  },
  {
   "property": "C185",
   "status": "partial",
   "theorems": [
    "Verif.Props.Lro.no_links_error",
    "Verif.Props.Lro.query_needs_links",
    "Verif.Props.Lro.query_scale",
    "Verif.Props.Lro.first_step_partial"
   ],
   "note": "Violated by the code: without links the scale is zero, the offsets divided by it are not finite, and `norm` raises ValueError; queries do the same. The first iteration succeeds from positive topics if there is a link and no self link."
  },
  {
   "property": "C186",
   "status": "partial",
   "theorems": [
    "Verif.Props.Lro.default_dtype_error",
    "Verif.Props.Lro.float64_trains_partial"
   ],
   "note": "Violated by the code: the default element type is float32, which the topic inference refuses with AssertionError. With float64 training continues with the topics found."
  },
  {
   "property": "C187",
   "status": "proved",
   "theorems": [
    "Verif.Props.MomElbo.train_monotone",
    "Verif.Props.MomElbo.estep_best",
    "Verif.Props.MomElbo.mstep_best"
   ],
   "note": "With the true digamma function. The default plan raises before (C104); the statement is about runs that return."
  },
  {
   "property": "C188",
   "status": "proved",
   "theorems": [
    "Verif.Props.MomElbo.query_best"
   ],
   "note": ""
  },
  {
   "property": "C189",
   "status": "proved",
   "theorems": [
    "Verif.Props.MomElbo.elbo_le_evidence"
   ],
   "note": "The evidence is written with urn probabilities, independent of digamma and Gamma functions."
  },
  {
   "property": "C19",
   "status": "partial",
   "theorems": [
    "Verif.Props.DataSetOps.split_on_feature_rows",
    "Verif.Props.DataSetOps.split_on_feature_partial",
    "Verif.Props.DataSetOps.split_on_feature_overlap",
    "Verif.Props.DataSetOps.split_on_feature_categories"
   ],
   "note": "Exact membership of both parts for all features; disjointness only for features that are zero or above 1e-30 (violated by cancelling features, witness); datasets with categories always fail."
  },
  {
   "property": "C190",
   "status": "proved",
   "theorems": [
    "Verif.Props.VbElbo.train_monotone",
    "Verif.Props.VbElbo.step_exact",
    "Verif.Props.VbElbo.counts_best",
    "Verif.Props.VbElbo.infer_best",
    "Verif.Props.VbElbo.elbo_le_free"
   ],
   "note": ""
  },
  {
   "property": "C191",
   "status": "proved",
   "theorems": [
    "Verif.Props.VbElbo.varBound_near",
    "Verif.Props.VbElbo.reported_monotone",
    "Verif.Props.VbElbo.varBound_eq"
   ],
   "note": "Real arithmetic: rounding is not modelled, the cut-off of the safe logarithm is."
  },
  {
   "property": "C192",
   "status": "proved",
   "theorems": [
    "Verif.Props.VbElbo.reported_le_evidence",
    "Verif.Props.VbElbo.elbo_le_evidence"
   ],
   "note": ""
  },
  {
   "property": "C193",
   "status": "partial",
   "theorems": [
    "Verif.Props.CtmFast.agrees_iff",
    "Verif.Props.CtmFast.accurate_fails",
    "Verif.Props.CtmFast.diagonal_same_partial",
    "Verif.Props.CtmFast.square_same_partial",
    "Verif.Props.CtmFast.square_monotone_partial",
    "Verif.Props.CtmFast.caller_means_overwritten"
   ],
   "note": "Violated by the code: without the diagonal approximation every training of at least one iteration raises a ValueError unless there are as many documents as topics (and has overwritten the caller's means). agrees_iff states exactly when the modules agree."
  },
  {
   "property": "C194",
   "status": "partial",
   "theorems": [
    "Verif.Props.SelfLda.no_query_state",
    "Verif.Props.SelfLda.documented_priors_rejected",
    "Verif.Props.SelfLda.priors_accepted",
    "Verif.Props.SelfLda.train_fails",
    "Verif.Props.SelfLda.train_erases",
    "Verif.Props.SelfLda.query_fails",
    "Verif.Props.SelfLda.train_zero_partial"
   ],
   "note": "Violated by the code: no model of newModelAtRandom gets a query state, documented priors are rejected, and train and query fail for every positive number of iterations, after erasing the word table. Zero iterations return the state unchanged."
  },
  {
   "property": "C195",
   "status": "proved",
   "theorems": [
    "Verif.Props.SelfLda.topicDists_dist"
   ],
   "note": ""
  },
  {
   "property": "C196",
   "status": "partial",
   "theorems": [
    "Verif.Props.StmVecY.train_fails",
    "Verif.Props.StmVecY.train_typeError",
    "Verif.Props.StmVecY.query_fails"
   ],
   "note": "Violated by the code: train always raises (TypeError when the systems can be solved), query and topicDists always raise an AttributeError."
  },
  {
   "property": "C197",
   "status": "proved",
   "theorems": [
    "Verif.Props.StmVecY.newton_exact",
    "Verif.Props.StmVecY.newton_fixed_iff",
    "Verif.Props.StmVecY.newton_fixed_best",
    "Verif.Props.StmVecY.estimate_fixed",
    "Verif.Props.StmVecY.gradient_deriv"
   ],
   "note": "Digamma and trigamma are arbitrary functions except in newton_fixed_best and gradient_deriv, where digamma is the derivative of the logarithm of Gamma."
  },
  {
   "property": "C198",
   "status": "proved",
   "theorems": [
    "Verif.Props.GibbsPosterior.choice_iff",
    "Verif.Props.GibbsPosterior.draws_of_topic",
    "Verif.Props.GibbsPosterior.resample_moves"
   ],
   "note": "Weights are rationals; zero is among the random numbers counted and chooses no topic (C54)."
  },
  {
   "property": "C199",
   "status": "proved",
   "theorems": [
    "Verif.Props.GibbsPosterior.weights_exact",
    "Verif.Props.GibbsPosterior.chance_exact"
   ],
   "note": "The joint probability is defined by rising factorials of the priors, independently of the sampler."
  },
  {
   "property": "C20",
   "status": "partial",
   "theorems": [
    "Verif.Props.DataSetOps.intercept_partial",
    "Verif.Props.DataSetOps.intercept_twice",
    "Verif.Props.DataSetOps.intercept_fooled"
   ],
   "note": "Proved for features not exceeding one; violated for a non-constant column of mean one (witness). The second-call part is proved for all features."
  },
  {
   "property": "C200",
   "status": "proved",
   "theorems": [
    "Verif.Props.GibbsPosterior.sweeps_keep_posterior"
   ],
   "note": "Topics are drawn exactly with the sampler's chances; for the real random numbers see C198 and C202."
  },
  {
   "property": "C201",
   "status": "proved",
   "theorems": [
    "Verif.Props.GibbsPosterior.sampler_converges"
   ],
   "note": "Topics are drawn exactly with the sampler's chances; for the real random numbers see C198 and C202."
  },
  {
   "property": "C202",
   "status": "proved",
   "theorems": [
    "Verif.Props.GibbsRuns.training_estimates",
    "Verif.Props.GibbsRuns.token_average"
   ],
   "note": "The average is over all values of rand() except zero, with which the code writes outside its tables (C54); the starting points in the documents are arbitrary."
  },
  {
   "property": "C203",
   "status": "partial",
   "theorems": [
    "Verif.Props.GibbsRuns.query_depends_on_start",
    "Verif.Props.GibbsRuns.query_estimates"
   ],
   "note": "Violated by the code: the words of the queried documents are added to the topics they have at random at the start and stay there, so that the limit depends on the start. query_estimates gives the distribution that is approached instead."
  },
  {
   "property": "C204",
   "status": "partial",
   "theorems": [
    "Verif.Props.MomPosterior.sampled_violation",
    "Verif.Props.MomPosterior.sampled_exact",
    "Verif.Props.MomPosterior.sampled_iff",
    "Verif.Props.MomPosterior.chance_violation",
    "Verif.Props.MomPosterior.chance_exact",
    "Verif.Props.MomPosterior.chance_iff"
   ],
   "note": "Violated by the code: one is subtracted from the prior, which is right for the most probable proportions but not for their average. sampled_exact is the distribution a sweep draws from, sampled_iff says when it is the right one; chance_* say the same of the weights alone. Word probabilities at or above the floor of safe_log."
  },
  {
   "property": "C205",
   "status": "partial",
   "theorems": [
    "Verif.Props.MomPosterior.query_violation",
    "Verif.Props.MomPosterior.query_converges_partial"
   ],
   "note": "Violated by the code: the limit is the posterior for the prior minus one (query_converges_partial), which differs from the posterior. Topics are drawn exactly with the sampler's chances."
  },
  {
   "property": "C206",
   "status": "proved",
   "theorems": [
    "Verif.Props.DmrWeights.gradient_exact"
   ],
   "note": "The digamma function is the derivative of log Gamma."
  },
  {
   "property": "C207",
   "status": "proved",
   "theorems": [
    "Verif.Props.DmrWeights.objective_exact",
    "Verif.Props.DmrWeights.total_exact"
   ],
   "note": ""
  },
  {
   "property": "C208",
   "status": "partial",
   "theorems": [
    "Verif.Props.DmrWeights.update_violation",
    "Verif.Props.DmrWeights.update_exact",
    "Verif.Props.DmrWeights.update_raises_partial"
   ],
   "note": "Violated by the code: every topic is fitted against the old weights of all the others, so improvements may add up to a loss. update_raises_partial: the claim when only one topic gets new weights."
  },
  {
   "property": "C209",
   "status": "partial",
   "theorems": [
    "Verif.Props.DmrPosterior.sampled_below_fitted",
    "Verif.Props.DmrPosterior.one_round_estimates_partial"
   ],
   "note": "Violated by the code: topics are sampled with the priors X.W, weights are fitted for the priors exp(X.W), which are larger by at least one for all weights. one_round_estimates_partial: with one round, estimates are posterior means under X.W."
  },
  {
   "property": "C21",
   "status": "proved",
   "theorems": [
    "Verif.Props.DataSetOps.min_freq_aligned",
    "Verif.Props.DataSetOps.min_freq_no_dict"
   ],
   "note": "Without a dictionary the call raises a TypeError."
  },
  {
   "property": "C210",
   "status": "partial",
   "theorems": [
    "Verif.Props.CtmBound.bound_violation",
    "Verif.Props.CtmBound.bound_partial",
    "Verif.Props.CtmBound.bound_below_partial",
    "Verif.Props.CtmBound.train_bound_partial",
    "Verif.Props.CtmBound.evidence_same"
   ],
   "note": "Violated by the code: the determinant of the covariance is subtracted instead of its logarithm and the maximum of the weights is dropped; the excess over the evidence has no limit. The value plus an exact correction is a bound, and in training the value logged is a bound whenever no prior variance exceeds one."
  },
  {
   "property": "C211",
   "status": "partial",
   "theorems": [
    "Verif.Props.CtmBound.bohning_bound_violation",
    "Verif.Props.CtmBound.bohning_bound_partial"
   ],
   "note": "Violated by the code: after every iteration on a corpus of equal topics the value exceeds the evidence by more than two. The value plus an exact correction is a bound."
  },
  {
   "property": "C212",
   "status": "proved",
   "theorems": [
    "Verif.Props.CtmQuery.query_proper",
    "Verif.Props.CtmQuery.step_solves",
    "Verif.Props.CtmQuery.loop_runs"
   ],
   "note": "With the exact matrix inverse; the initial coefficients are positive."
  },
  {
   "property": "C213",
   "status": "partial",
   "theorems": [
    "Verif.Props.CtmQuery.step_s_violation",
    "Verif.Props.CtmQuery.step_s",
    "Verif.Props.CtmQuery.s_exact",
    "Verif.Props.CtmQuery.step_best_partial"
   ],
   "note": "Violated by the code: the offset is computed by the formula for half the coefficients and is not the best one unless there are exactly two topics; exact loss proved. Weights and variances are the best ones for the slopes of the initial weights, which are never updated."
  },
  {
   "property": "C214",
   "status": "partial",
   "theorems": [
    "Verif.Props.CtmQuery.query_row_partial",
    "Verif.Props.CtmQuery.loop_early",
    "Verif.Props.CtmQuery.query_row_steps",
    "Verif.Props.CtmStop.row_violation"
   ],
   "note": "Violated by the code: from the 22nd iteration on the loop ends when the perplexity of all documents together improves by less than one, so the number of iterations depends on the other documents; row_violation exhibits two queries with a document in common that infer different weights for it, whatever the number of iterations from 23 on. Exact behaviour: the other documents matter only through the number of iterations carried out. It holds up to 22 iterations (sharp)."
  },
  {
   "property": "C215",
   "status": "partial",
   "theorems": [
    "Verif.Props.RunCli.dtypes_violation",
    "Verif.Props.RunCli.dtypes_one_partial",
    "Verif.Props.RunCli.dtypes_two_partial"
   ],
   "note": "Violated by the code: whatever follows a second colon is accepted and ignored. Texts with at most one colon are read or refused as stated."
  },
  {
   "property": "C216",
   "status": "proved",
   "theorems": [
    "Verif.Props.RunCli.mask_read",
    "Verif.Props.RunCli.mask_none",
    "Verif.Props.RunCli.mask_refused"
   ],
   "note": "int and str are arbitrary functions with int(str(i)) = i. Text after a second colon of an entry is ignored (example)."
  },
  {
   "property": "C217",
   "status": "partial",
   "theorems": [
    "Verif.Props.RunCli.file_violation",
    "Verif.Props.RunCli.file_clean",
    "Verif.Props.RunCli.file_partial"
   ],
   "note": "Violated by the code: three pairs of modules share the name of their model. For models of the same name the files differ."
  },
  {
   "property": "C218",
   "status": "partial",
   "theorems": [
    "Verif.Props.RunCli.hashtag_violation",
    "Verif.Props.RunCli.tag_prop_violation",
    "Verif.Props.RunCli.hashtag_partial"
   ],
   "note": "Violated by the code: run calls the evaluation with proportion 0, so that nothing is removed and all scores of all models are 0; the parameter documented as the proportion to keep is the proportion removed. With proportion 1 the claim holds."
  },
  {
   "property": "C219",
   "status": "partial",
   "theorems": [
    "Verif.Props.RunCli.scores_violation",
    "Verif.Props.RunCli.scores_partial"
   ],
   "note": "Violated by the code: counts above one are summed, which makes both scores as large as one likes. Holds if no document repeats a tag."
  },
  {
   "property": "C22",
   "status": "proved",
   "theorems": [
    "Verif.Props.Evals.map_defined_iff",
    "Verif.Props.Evals.map_range",
    "Verif.Props.Evals.map_perfect"
   ],
   "note": ""
  },
  {
   "property": "C220",
   "status": "proved",
   "theorems": [
    "Verif.Props.RunCli.outsample_rounds",
    "Verif.Props.RunCli.outsample_grows"
   ],
   "note": "Training and evaluation of each round are assumed to succeed."
  },
  {
   "property": "C221",
   "status": "partial",
   "theorems": [
    "Verif.Props.RunCli.run_violation"
   ],
   "note": "Violated by the code: run passes prune_and_shuffle a keyword that it does not have, so that every run ends with TypeError before anything is trained."
  },
  {
   "property": "C222",
   "status": "partial",
   "theorems": [
    "Verif.Props.WordList.word_list_violation",
    "Verif.Props.WordList.word_list_refused",
    "Verif.Props.WordList.word_list_unsafe",
    "Verif.Props.WordList.word_list",
    "Verif.Props.WordList.word_list_partial"
   ],
   "note": "Violated by the code: fractions of counts are cut off per word and replaced by word 0; a corpus of one document is refused with ValueError; a negative count makes the compiled code write outside its array. For whole counts of two or more documents the claim holds."
  },
  {
   "property": "C223",
   "status": "proved",
   "theorems": [
    "Verif.Props.CvbBound.training_counts",
    "Verif.Props.Cvb0.cvb0_counts_are_sums"
   ],
   "note": "training_counts holds for every state whose counts are the sums of its token probabilities, which cvb0_counts_are_sums proves of all iterations (C25 and following for the second-order model)."
  },
  {
   "property": "C224",
   "status": "proved",
   "theorems": [
    "Verif.Props.CvbBound.bound_le_evidence",
    "Verif.Props.CvbBound.training_bound",
    "Verif.Props.CvbBound.training_bound2"
   ],
   "note": "The evidence is the sum over all assignments of the P\u00f3lya urn probabilities of the model. The approximate exponential of the second-order model is an arbitrary positive function."
  },
  {
   "property": "C225",
   "status": "partial",
   "theorems": [
    "Verif.Props.CvbBound.bound_violation",
    "Verif.Props.CvbBound.bound_exact",
    "Verif.Props.CvbBound.bound_partial"
   ],
   "note": "Violated by the code: the entropy is subtracted, which makes the bound worse by exactly twice the entropy; it is not a number when some probability is zero. With one topic the value is the log-evidence exactly."
  },
  {
   "property": "C226",
   "status": "partial",
   "theorems": [
    "Verif.Props.RtmLearn.weights_direction",
    "Verif.Props.RtmLearn.weights_violation",
    "Verif.Props.RtmLearn.weights_partial"
   ],
   "note": "Violated by the code: the regulariser is added instead of subtracted while the weights decay with strength one, so the effective strength is one minus the one given; what the steps climb exactly is weights_direction. Agrees with the documentation for strength one half and no negative examples."
  },
  {
   "property": "C227",
   "status": "partial",
   "theorems": [
    "Verif.Props.RtmLearn.regulariser_violation",
    "Verif.Props.RtmLearn.regulariser_alone"
   ],
   "note": "Violated by the code: a stronger regulariser moves every weight further from zero, for all data. regulariser_alone: without links, learned weights are a common multiple of the initial ones, above one when the strength is above one."
  },
  {
   "property": "C228",
   "status": "proved",
   "theorems": [
    "Verif.Props.RtmLearn.negatives_lower"
   ],
   "note": "For one step, from the same weights."
  },
  {
   "property": "C229",
   "status": "partial",
   "theorems": [
    "Verif.Props.RtmLearn.prior_violation",
    "Verif.Props.RtmLearn.prior_shrinks",
    "Verif.Props.RtmLearn.prior_update_shrinks"
   ],
   "note": "Violated by the code: the digamma function of the entry instead of the sum is subtracted in the denominator, so that every update makes every entry of the prior smaller whatever the counts are; for documents that use two topics equally the likelihood falls for every initial prior."
  },
  {
   "property": "C23",
   "status": "proved",
   "theorems": [
    "Verif.Props.Evals.map_threshold",
    "Verif.Props.Evals.map_threshold_ties"
   ],
   "note": "map_threshold_ties shows that the hypothesis of distinct scores is needed."
  },
  {
   "property": "C230",
   "status": "proved",
   "theorems": [
    "Verif.Props.RtmLearn.prior_positive"
   ],
   "note": "With the modelled update of the prior and at least two topics; when the bound has converged is arbitrary."
  },
  {
   "property": "C231",
   "status": "partial",
   "theorems": [
    "Verif.Props.RtmBound.bound_violation",
    "Verif.Props.RtmBound.bound_without",
    "Verif.Props.RtmBound.bound_partial"
   ],
   "note": "Violated by the code: the probability of links is taken at the mean topics instead of averaging its logarithm, and the probit function is not concave there; with the default prior and two linked documents the value exceeds the evidence. Without links it is a bound."
  },
  {
   "property": "C232",
   "status": "proved",
   "theorems": [
    "Verif.Props.RtmLearn.scores_gradient"
   ],
   "note": "With the safeguard 1E-30 that is added to probabilities."
  },
  {
   "property": "C233",
   "status": "partial",
   "theorems": [
    "Verif.Props.LogUtils.log_one_plus_unbounded",
    "Verif.Props.LogUtils.log_one_plus_accurate_partial",
    "Verif.Props.LogUtils.log_one_plus_accurate_nonneg",
    "Verif.Props.LogUtils.log_one_plus_relative",
    "Verif.Props.LogUtils.log_one_plus_exp_relative"
   ],
   "note": "Violated by the code: below -0.375 the rational approximation is used outside its interval, and its error has no limit. From -0.375 on the absolute error is at most 2E-11; the logarithm of one plus an exponential is accurate everywhere. Exact arithmetic; rounding is not modelled."
  },
  {
   "property": "C234",
   "status": "partial",
   "theorems": [
    "Verif.Props.SparseOut.entropy_of_dot_nan",
    "Verif.Props.SparseOut.entropy_py_wrong",
    "Verif.Props.SparseOut.entropy_py_index",
    "Verif.Props.SparseOut.entropy_of_dot_eq",
    "Verif.Props.SparseOut.entropy_of_dot_chain_partial",
    "Verif.Props.SparseOut.entropy_of_dot_nonneg"
   ],
   "note": "Violated by the code: a single zero makes the result NaN, and for every element type other than the two floating ones the logarithm of the wrong element is taken, with an IndexError when there are more documents than topics. For positive entries in the compiled code the claim holds."
  },
  {
   "property": "C235",
   "status": "partial",
   "theorems": [
    "Verif.Props.SparseOut.safe_ln_out_not_written",
    "Verif.Props.SparseOut.safe_ln_into_double",
    "Verif.Props.SparseOut.safe_ln_into_single_partial",
    "Verif.Props.SparseOut.quotient_into_spec"
   ],
   "note": "Violated by the code: in double precision over all rows the logarithmic product ignores out. The quotient, and the logarithmic product in single precision, write and return it."
  },
  {
   "property": "C236",
   "status": "partial",
   "theorems": [
    "Verif.Props.SparseOut.int_quotient_and_log_raise",
    "Verif.Props.SparseOut.int_product_floating",
    "Verif.Props.SparseOut.int_product_spec_partial"
   ],
   "note": "Violated by the code: quotients and logarithmic products of integer matrices, and products with floating matrices, always raise. Only the product of integer matrices works."
  },
  {
   "property": "C237",
   "status": "partial",
   "theorems": [
    "Verif.Props.RunFiles.title_violation",
    "Verif.Props.RunFiles.title_round_trip_partial"
   ],
   "note": "Violated by the code: a space in the name moves every part by one. Holds for names and numbers of topics without spaces and without commas at their ends."
  },
  {
   "property": "C238",
   "status": "partial",
   "theorems": [
    "Verif.Props.RunFiles.read_lost",
    "Verif.Props.RunFiles.read_adjacent",
    "Verif.Props.RunFiles.read_entry",
    "Verif.Props.RunFiles.read_last",
    "Verif.Props.RunFiles.read_all_partial",
    "Verif.Props.RunFiles.skip_spec",
    "Verif.Props.RunFiles.section_missing"
   ],
   "note": "Violated by the code: the line after an entry is dropped whatever it is, so that the title of an entry that follows directly is lost, and a blank line instead of the last score ends the file. With a line between entries everything is read."
  },
  {
   "property": "C239",
   "status": "partial",
   "theorems": [
    "Verif.Props.ArxivFiles.no_colon",
    "Verif.Props.ArxivFiles.run_aborts",
    "Verif.Props.ArxivFiles.run_skips_partial",
    "Verif.Props.ArxivFiles.next_key_value_spec",
    "Verif.Props.ArxivFiles.next_key_none",
    "Verif.Props.ArxivFiles.field_effect",
    "Verif.Props.ArxivFiles.paper_complete",
    "Verif.Props.ArxivFiles.full_year"
   ],
   "note": "Violated by the code: a line without a colon raises IndexError, which ends the run for all papers after it. Files which end in ValueError are skipped; splitting of names is an arbitrary function."
  },
  {
   "property": "C24",
   "status": "proved",
   "theorems": [
    "Verif.Props.Ranking.mrr_mean",
    "Verif.Props.Ranking.mrr_range",
    "Verif.Props.Ranking.mrr_absent_ignored"
   ],
   "note": ""
  },
  {
   "property": "C240",
   "status": "partial",
   "theorems": [
    "Verif.Props.ArxivFiles.acl_author_violation",
    "Verif.Props.ArxivFiles.acl_author_spec_partial"
   ],
   "note": "Violated by the code: of two words the last is always the family name, even a title, and a single word that ends in a dot leaves an empty family name. All longer names are converted as stated."
  },
  {
   "property": "C241",
   "status": "proved",
   "theorems": [
    "Verif.Props.ArxivFiles.author_line_read_back"
   ],
   "note": ""
  },
  {
   "property": "C242",
   "status": "partial",
   "theorems": [
    "Verif.Props.ArxivFiles.text_matrix_violation",
    "Verif.Props.ArxivFiles.dense_truncates",
    "Verif.Props.ArxivFiles.dense_exact_partial",
    "Verif.Props.ArxivFiles.sparse_floors",
    "Verif.Props.ArxivFiles.sparse_exact_partial",
    "Verif.Props.ArxivFiles.count_checked",
    "Verif.Props.ArxivFiles.bad_number"
   ],
   "note": "Violated by the code: unless the first line has a decimal point all fractions are cut off; a line of one number fills its row; the sparse conversion drops negative numbers and fills short lines with zeros. Exact for equally long lines when the first has a decimal point or all numbers are whole (sparse: and none is negative)."
  },
  {
   "property": "C243",
   "status": "partial",
   "theorems": [
    "Verif.Props.Copies.modules_share",
    "Verif.Props.Copies.copy_shares",
    "Verif.Props.Copies.copy_independent_partial",
    "Verif.Props.Copies.modules_independent_partial"
   ],
   "note": "Violated by the code: mom_em and mom_gibbs share the topic prior, mtm the topic covariance, and every module a word prior that is an array (copy_shares: a write to a shared array is seen through both). All other fields of all modules are independent."
  },
  {
   "property": "C244",
   "status": "partial",
   "theorems": [
    "Verif.Props.Copies.cvb_copy_wrong",
    "Verif.Props.Copies.modules_copy_equal",
    "Verif.Props.Copies.copy_equal_partial",
    "Verif.Props.Copies.copy_succeeds",
    "Verif.Props.Copies.declared_filled",
    "Verif.Props.Copies.declared_copied",
    "Verif.Props.Copies.missing_field"
   ],
   "note": "Violated by the code: lda_cvb copies counts in place of variances. In all other modules the copy has equal contents."
  },
  {
   "property": "C245",
   "status": "partial",
   "theorems": [
    "Verif.Props.Copies.wrapper_copy_raises",
    "Verif.Props.Copies.wrapper_made"
   ],
   "note": "Violated by the code: every copy raises TypeError because the kind of model is not passed on."
  },
  {
   "property": "C246",
   "status": "partial",
   "theorems": [
    "Verif.Props.Copies.data_copy",
    "Verif.Props.Copies.data_binary_violation",
    "Verif.Props.Copies.data_changes_partial",
    "Verif.Props.Copies.data_with_changes"
   ],
   "note": "Violated by the code: deep copies always raise TypeError, and converting the links of a shallow copy to zeros and ones overwrites the links of the original. All other conversions make new matrices."
  },
  {
   "property": "C247",
   "status": "partial",
   "theorems": [
    "Verif.Props.SkWrapped.online_raises",
    "Verif.Props.SkWrapped.batch_partial"
   ],
   "note": "Violated by the code: every batch size other than zero raises TypeError, because the offset of the learning rate is passed under a name that scikit-learn does not know."
  },
  {
   "property": "C248",
   "status": "proved",
   "theorems": [
    "Verif.Props.SkWrapped.flag_down",
    "Verif.Props.SkWrapped.fit_starts",
    "Verif.Props.SkWrapped.fit_forgets"
   ],
   "note": "Initialisation and estimation of scikit-learn are arbitrary functions, of which estimation may fail after changing the topics."
  },
  {
   "property": "C249",
   "status": "partial",
   "theorems": [
    "Verif.Props.SkWrapped.score_integers",
    "Verif.Props.SkWrapped.score_refused",
    "Verif.Props.SkWrapped.score_lda",
    "Verif.Props.SkWrapped.score_lda_inferred",
    "Verif.Props.SkWrapped.score_scale",
    "Verif.Props.SkWrapped.score_hdp"
   ],
   "note": "Violated by the code: words counted in integers always raise, a query state is refused although documented, and expected scores are not implemented. For floating point words of one type the four point scores are as stated."
  },
  {
   "property": "C25",
   "status": "proved",
   "theorems": [
    "Verif.Props.Ranking.recall_spec",
    "Verif.Props.Ranking.prec_rec_closed"
   ],
   "note": ""
  },
  {
   "property": "C250",
   "status": "partial",
   "theorems": [
    "Verif.Props.Likelihoods.word_likelihood_only",
    "Verif.Props.Likelihoods.self_adds_words",
    "Verif.Props.Likelihoods.self_reads_outside",
    "Verif.Props.Likelihoods.matrix_exact",
    "Verif.Props.Likelihoods.matrix_reads_outside",
    "Verif.Props.Likelihoods.matrix_wrong",
    "Verif.Props.Likelihoods.matrix_partial"
   ],
   "note": "Violated by the code: rtm and mtm leave the links out, self_lda counts the words a second time as links, and mtm2 and mtm3 index the table of link targets by topic and document the wrong way round, which reads outside the table for most corpora. Without links mtm2 and mtm3 are as stated."
  },
  {
   "property": "C251",
   "status": "partial",
   "theorems": [
    "Verif.Props.Likelihoods.em_point_partial",
    "Verif.Props.Likelihoods.em_point_corpus",
    "Verif.Props.Likelihoods.gibbs_point_exact",
    "Verif.Props.Likelihoods.gibbs_point_violation",
    "Verif.Props.Likelihoods.gibbs_point_partial"
   ],
   "note": "Violated by the code: mom_gibbs mixes the topics for every word, as LDA does, instead of for every document. mom_em is as stated with weights floored at 1E-300; mom_gibbs when every document has one topic."
  },
  {
   "property": "C252",
   "status": "partial",
   "theorems": [
    "Verif.Props.MtmBound.bound1_initial",
    "Verif.Props.MtmBound.bound1_violation",
    "Verif.Props.MtmBound.bound2_ignores_links",
    "Verif.Props.MtmBound.bound2_partial",
    "Verif.Props.MtmBound.bound2_violation",
    "Verif.Props.MtmBound.bound3_eq",
    "Verif.Props.MtmBound.bound3_partial",
    "Verif.Props.MtmBound.bound3_violation"
   ],
   "note": "Violated by the code in all three modules: mtm starts with a positive bound for a corpus of probability one, mtm2 leaves out the links, and the bounds of mtm2 and mtm3 exceed the evidence by any amount. With the explicit gaps added, mtm2 and (without links) mtm3 stay below the evidence."
  },
  {
   "property": "C253",
   "status": "partial",
   "theorems": [
    "Verif.Props.GibbsHyper.infer_empty_violation",
    "Verif.Props.GibbsHyper.single_garbage_violation",
    "Verif.Props.GibbsHyper.single_partial"
   ],
   "note": "Violated by the code: one empty document makes the whole prior NaN, and the denominator starts from memory that is not initialised, so a step may return any number. If it starts from zero and there is no empty document, a step (without the constant added to it) never lowers the leave-one-out likelihood."
  },
  {
   "property": "C254",
   "status": "partial",
   "theorems": [
    "Verif.Props.GibbsHyper.query_prior_violation",
    "Verif.Props.GibbsHyper.query_prior_partial"
   ],
   "note": "Violated by the code: with the re-estimation switched on, a query of ten or more samples changes the prior of the model, to NaN if one of its documents is empty. Unchanged with the switch off, or with fewer samples."
  },
  {
   "property": "C255",
   "status": "partial",
   "theorems": [
    "Verif.Props.Priors.topic_mean_violation",
    "Verif.Props.Priors.topic_mean_same",
    "Verif.Props.Priors.topic_scalar_violation",
    "Verif.Props.Priors.topic_partial",
    "Verif.Props.Priors.topic_default",
    "Verif.Props.Priors.vocab_default"
   ],
   "note": "Violated by the code: the collapsed models use the mean of the vector for every topic, and several models fail with numbers; topic_partial lists what works."
  },
  {
   "property": "C256",
   "status": "partial",
   "theorems": [
    "Verif.Props.Priors.vocab_violation",
    "Verif.Props.Priors.vocab_partial",
    "Verif.Props.Priors.vocab_one"
   ],
   "note": "Violated by the code: vectors fail in the variational and collapsed models and numbers in the regression model; vocab_partial lists what works."
  },
  {
   "property": "C257",
   "status": "partial",
   "theorems": [
    "Verif.Props.RtmLearn.negatives_typical",
    "Verif.Props.RtmLearn.negatives_typical_violation",
    "Verif.Props.RtmLearn.negatives_typical_partial"
   ],
   "note": "Violated by the code: the sum of the prior is divided by once instead of twice. Correct if the prior sums to one."
  },
  {
   "property": "C258",
   "status": "partial",
   "theorems": [
    "Verif.Props.RunOptions.vocab_prior_violation",
    "Verif.Props.RunOptions.vocab_prior_used",
    "Verif.Props.RunOptions.vocab_prior_partial"
   ],
   "note": "Violated by the code: the variational topic models take it as the prior of the topics and most others ignore it; reaches the correlated and the feature models."
  },
  {
   "property": "C259",
   "status": "partial",
   "theorems": [
    "Verif.Props.RunOptions.plan_violation",
    "Verif.Props.RunOptions.bindArgs_spec",
    "Verif.Props.RunOptions.plan_partial"
   ],
   "note": "Violated by the code: the log frequency and the smallest change of the bound are never passed on. The iterations and the debug switch are, and the options of gradient descent to the stochastic model."
  },
  {
   "property": "C26",
   "status": "partial",
   "theorems": [
    "Verif.Props.Ranking.precision_exceeds_one",
    "Verif.Props.Ranking.precision_exact",
    "Verif.Props.Ranking.precision_partial"
   ],
   "note": "Violated by the code: the cut-off is off by one (hits among the first m+1 ranked links are divided by m), so precision can exceed one; exact value and the case in which it is a proper precision."
  },
  {
   "property": "C260",
   "status": "partial",
   "theorems": [
    "Verif.Props.RunOptions.debug_violation",
    "Verif.Props.RunOptions.debug_partial"
   ],
   "note": "Violated by the code: every text but the empty one switches debugging on."
  },
  {
   "property": "C261",
   "status": "proved",
   "theorems": [
    "Verif.Props.Pretrained.load_iff"
   ],
   "note": "For data sets with at least one document whose order names no document twice."
  },
  {
   "property": "C262",
   "status": "partial",
   "theorems": [
    "Verif.Props.Pretrained.link_split_violation",
    "Verif.Props.Pretrained.link_split_exact",
    "Verif.Props.Pretrained.outsample_violation",
    "Verif.Props.Pretrained.used_partial",
    "Verif.Props.Pretrained.prune_rows"
   ],
   "note": "Violated by the code: never used when links are split, and the evaluation on other documents fails without one or with a variational one. used_partial lists where it is used."
  },
  {
   "property": "C263",
   "status": "proved",
   "theorems": [
    "Verif.Props.Pretrained.start_topics",
    "Verif.Props.Pretrained.start_mean"
   ],
   "note": "In exact arithmetic, at least two topics."
  },
  {
   "property": "C264",
   "status": "partial",
   "theorems": [
    "Verif.Props.Pretrained.fresh_violation",
    "Verif.Props.Pretrained.fresh_partial"
   ],
   "note": "Violated by the code: the variational implementation stores the debug switch in the mark. Correct without debugging and in the sampling implementation."
  },
  {
   "property": "C265",
   "status": "partial",
   "theorems": [
    "Verif.Props.Stopping.tolerance_violation",
    "Verif.Props.Stopping.tolerance_partial",
    "Verif.Props.Stopping.tolerance_mono"
   ],
   "note": "Violated by the code: nineteen of the twenty-one loops never read the tolerance. lda_vb and lda_svb do (exact rule); a smaller tolerance never stops sooner anywhere."
  },
  {
   "property": "C266",
   "status": "partial",
   "theorems": [
    "Verif.Props.Stopping.rising_violation",
    "Verif.Props.Stopping.newest_ignored_violation",
    "Verif.Props.Stopping.behind_exact",
    "Verif.Props.Stopping.little_change_partial",
    "Verif.Props.Stopping.all_loops"
   ],
   "note": "Violated by the code: eight loops stop whenever the perplexity rises, and three leave out the newest measurement. Holds for the five loops that compare the absolute change, and for the eight while the perplexity falls."
  },
  {
   "property": "C267",
   "status": "proved",
   "theorems": [
    "Verif.Props.Stopping.not_before"
   ],
   "note": "For measurements at increasing iterations."
  },
  {
   "property": "C268",
   "status": "partial",
   "theorems": [
    "Verif.Props.StmBound.bound_violation",
    "Verif.Props.StmBound.online_violation",
    "Verif.Props.StmBound.bohning_docs_partial",
    "Verif.Props.StmBound.bouchard_docs_partial",
    "Verif.Props.StmBound.bouchard_below_partial"
   ],
   "note": "Violated by the code: the logarithm of the determinant of the covariance enters the bound with the wrong factor for the features and factors, so the bound has no upper limit, and one of the implementations always returns zero. The part of the bound about the documents, corrected by the gaps, is below the evidence."
  },
  {
   "property": "C269",
   "status": "proved",
   "theorems": [
    "Verif.Props.StmYv.train_proper",
    "Verif.Props.StmYv.step_proper"
   ],
   "note": "For every matrix inverse, exact or not, and exact arithmetic otherwise."
  },
  {
   "property": "C27",
   "status": "proved",
   "theorems": [
    "Verif.Props.Ranking.groups_complete",
    "Verif.Props.Ranking.groups_outside_fail",
    "Verif.Props.Ranking.groups_default_fail"
   ],
   "note": ""
  },
  {
   "property": "C270",
   "status": "proved",
   "theorems": [
    "Verif.Props.StmYv.query_proper",
    "Verif.Props.StmYv.new_query"
   ],
   "note": "For an exact matrix inverse and a diagonal covariance, as training leaves it."
  },
  {
   "property": "C271",
   "status": "partial",
   "theorems": [
    "Verif.Props.StmYv.query_best_partial",
    "Verif.Props.StmYv.query_coefficients_violation"
   ],
   "note": "Violated by the code: `_deriveXi` uses the square of the variance where the variance belongs, so the coefficients are the best ones exactly when all variances are one. Weights and variances are the best ones."
  },
  {
   "property": "C272",
   "status": "partial",
   "theorems": [
    "Verif.Props.StmYv.train_best_partial",
    "Verif.Props.StmYv.train_first_violation",
    "Verif.Props.StmYv.train_coefficients_violation"
   ],
   "note": "Violated by the code: the first iteration reads the coefficients of a fresh query state as twice their size, so in every document with words better variances exist; and the coefficients it leaves are the best ones only when all variances are one. In later iterations weights and variances are the best ones."
  },
  {
   "property": "C273",
   "status": "partial",
   "theorems": [
    "Verif.Props.MomBound.trained_bound_violation",
    "Verif.Props.MomBound.bound_exceeds_violation",
    "Verif.Props.MomBound.bound_hard",
    "Verif.Props.MomBound.bound_nonneg",
    "Verif.Props.MomBound.log_evidence_nonpos"
   ],
   "note": "Violated by the code: the logarithms of words and memberships are multiplied, so that the bound is never negative, and it exceeds the evidence for every trained model of two or more topics. The exact value is given: only the topics that a document is not in enter."
  },
  {
   "property": "C274",
   "status": "partial",
   "theorems": [
    "Verif.Props.DmrCounts.query_long_violation",
    "Verif.Props.DmrCounts.query_counts",
    "Verif.Props.DmrCounts.query_counts_partial",
    "Verif.Props.DmrCounts.train_counts",
    "Verif.Props.DmrCounts.estimate_sum_iff"
   ],
   "note": "Violated by the code: query accepts documents of 65,536 words or more, whose counts wrap around; training refuses them. The counts are exact up to multiples of 65,536, hence exact for shorter documents."
  },
  {
   "property": "C275",
   "status": "partial",
   "theorems": [
    "Verif.Props.DebugReport.first_line_violation",
    "Verif.Props.DebugReport.small_fall_violation",
    "Verif.Props.DebugReport.better_before_violation",
    "Verif.Props.DebugReport.shown_sign_violation",
    "Verif.Props.DebugReport.line_iff",
    "Verif.Props.DebugReport.first_line",
    "Verif.Props.DebugReport.later_falls_partial",
    "Verif.Props.DebugReport.shown_change_partial"
   ],
   "note": "Violated by the code: falls by less than one are not reported, the first update is compared with zero or with the training before, and ctm.py shows the negated change. later_falls_partial: after the first update a report means a fall."
  },
  {
   "property": "C276",
   "status": "partial",
   "theorems": [
    "Verif.Props.CvbRange.tolerance_violation",
    "Verif.Props.CvbRange.incomplete_violation",
    "Verif.Props.CvbRange.single_violation",
    "Verif.Props.CvbRange.single_never_stops",
    "Verif.Props.CvbRange.early_return_succeeds",
    "Verif.Props.CvbRange.stays_within_partial",
    "Verif.Props.CvbRange.stops_iff",
    "Verif.Props.CvbRange.nothing_after_stop",
    "Verif.Props.CvbRange.iterate_first"
   ],
   "note": "Violated by the code: the check accepts -0.1..1.1, not the documented range; when it fails the function prints a message and returns in the middle of a token, and train returns the model without an error; and the single precision second-order function has its check commented out. stays_within_partial: the other functions never store a number outside -0.1..1.1."
  },
  {
   "property": "C277",
   "status": "partial",
   "theorems": [
    "Verif.Props.DmrEstimates.negative_feature_violation",
    "Verif.Props.DmrEstimates.word_estimates_partial",
    "Verif.Props.DmrEstimates.topic_estimates_partial",
    "Verif.Props.DmrEstimates.trained_samples"
   ],
   "note": "Violated by the code for documents whose features give negative priors: the sampler uses the product of features and weights itself as the prior, not its exponential. Proved for the words, and for the topics of documents whose priors stay positive."
  },
  {
   "property": "C278",
   "status": "partial",
   "theorems": [
    "Verif.Props.DmrEstimates.default_plans_violation",
    "Verif.Props.DmrEstimates.query_rescales",
    "Verif.Props.DmrEstimates.query_preserves_partial",
    "Verif.Props.DmrEstimates.query_topic_estimates"
   ],
   "note": "Violated by the code: query returns the sum over the samples of training with the number of samples of the query, so that the distributions are multiplied by the quotient of the two numbers. They are preserved exactly if the numbers are equal, which the default plans rule out."
  },
  {
   "property": "C279",
   "status": "partial",
   "theorems": [
    "Verif.Props.RecLikely.tfidf_violation",
    "Verif.Props.RecLikely.sim_lda_partial",
    "Verif.Props.RecLikely.lro_partial",
    "Verif.Props.RecLikely.unknown_method"
   ],
   "note": "Violated by the code for the TF-IDF method: the log-likelihood 0 is reported for every corpus, that is a perplexity of one, below that of every model that is not certain of all words. For topics, and for the offset model, the claim holds in exact arithmetic."
  },
  {
   "property": "C28",
   "status": "proved",
   "theorems": [
    "Verif.Props.Perplexity.perplexity_log",
    "Verif.Props.Perplexity.perplexity_ge_one",
    "Verif.Props.Perplexity.perplexity_anti",
    "Verif.Props.Perplexity.perplexity_pooled"
   ],
   "note": "Over the reals; floating-point rounding is not modelled."
  },
  {
   "property": "C280",
   "status": "partial",
   "theorems": [
    "Verif.Props.Seeding.gibbs_seed_violation",
    "Verif.Props.Seeding.seed_used_partial",
    "Verif.Props.Seeding.fresh_reproducible",
    "Verif.Props.Seeding.seed_range"
   ],
   "note": "Violated by the code for the Gibbs sampler: lda_gibbs.seed_rng ignores its argument and seeds both generators with 0xC0FFEE, undoing the seed that __setattr__ has just given to numpy, so that all seeds give the same model. For the other kinds numpy's generator starts from the given seed; reproducibility of a new wrapper that is fitted at once holds for all kinds."
  },
  {
   "property": "C281",
   "status": "partial",
   "theorems": [
    "Verif.Props.Seeding.same_seed_violation",
    "Verif.Props.Seeding.fit_depends",
    "Verif.Props.Seeding.reseed_partial",
    "Verif.Props.Seeding.interference",
    "Verif.Props.Seeding.gibbs_draws",
    "Verif.Props.Seeding.dmr_reproducible"
   ],
   "note": "Violated by the code: the seed is applied to generators shared by the whole process when it is assigned, not when fit is called, so that of two wrappers made with the same seed the second starts from the numbers that the first has left. Assigning the seed again just before the call makes the claim true."
  },
  {
   "property": "C282",
   "status": "proved",
   "theorems": [
    "Verif.Props.SkParams.clone_same",
    "Verif.Props.SkParams.clone_iff"
   ],
   "note": "clone_iff says exactly for which attributes, such as those left by set_params, the wrapper is made again."
  },
  {
   "property": "C283",
   "status": "partial",
   "theorems": [
    "Verif.Props.SkParams.zero_violation",
    "Verif.Props.SkParams.given_partial",
    "Verif.Props.SkParams.construct_eq",
    "Verif.Props.Sklearn.new_wrapper_settings"
   ],
   "note": "Violated by the code for zero: a tolerance of zero becomes 0.1 and zero query iterations become a tenth of the iterations, because the constructor uses `or`. Proved for all other settings."
  },
  {
   "property": "C284",
   "status": "partial",
   "theorems": [
    "Verif.Props.SkParams.set_iterations_violation",
    "Verif.Props.SkParams.set_kind_violation",
    "Verif.Props.SkParams.set_iterations_iff",
    "Verif.Props.SkParams.set_partial"
   ],
   "note": "Violated by the code: a new number of iterations leaves the number of query iterations that followed from the old one; a member of TopicModelType, which the constructor takes, makes every later call fail with a KeyError; an unknown kind is accepted. set_partial: proved for all other changes."
  },
  {
   "property": "C285",
   "status": "partial",
   "theorems": [
    "Verif.Props.Init.many_hangs_violation",
    "Verif.Props.Init.mtm_empty_violation",
    "Verif.Props.Init.one_doc_exact",
    "Verif.Props.Init.one_doc_none",
    "Verif.Props.Init.one_doc_prefers_partial",
    "Verif.Props.Init.many_exact",
    "Verif.Props.Init.many_unended",
    "Verif.Props.Init.many_ends_partial"
   ],
   "note": "Violated by the code for corpora without words: the sampling of lda_vb_python, mom_em and mom_gibbs never ends, and mtm starts with weights of zero. The exact weights are proved for all other cases."
  },
  {
   "property": "C286",
   "status": "partial",
   "theorems": [
    "Verif.Props.Init.mtm_scale_violation",
    "Verif.Props.Init.mtm_total",
    "Verif.Props.Init.normalised_partial"
   ],
   "note": "Violated by the code for mtm: the weights already include a one for each word and the counts of a document before they are multiplied by the words per topic, so they add up to the words of the corpus times the size of the vocabulary and more."
  },
  {
   "property": "C287",
   "status": "partial",
   "theorems": [
    "Verif.Props.Init.alike_violation",
    "Verif.Props.Init.alike_iff_partial"
   ],
   "note": "Violated by the code: documents are drawn with replacement, so with more topics than documents two topics always start alike. Topics are alike exactly if the drawn documents have the same words (rtm, self_lda, mtm)."
  },
  {
   "property": "C288",
   "status": "proved",
   "theorems": [
    "Verif.Props.Init.dirichlet_topics",
    "Verif.Props.Init.topics_counts",
    "Verif.Props.Init.topics_distributions"
   ],
   "note": "Corpora of one document are treated in SingleDoc."
  },
  {
   "property": "C289",
   "status": "partial",
   "theorems": [
    "Verif.Props.SkOther.get_params_violation",
    "Verif.Props.SkOther.kept_iff_partial"
   ],
   "note": "Violated by the code: the constructors keep hardly any of their arguments, so get_params raises an AttributeError for every object (scikit-learn before 0.24 gives None for the missing ones instead). Exactly the arguments listed in kept are reported."
  },
  {
   "property": "C29",
   "status": "proved",
   "theorems": [
    "Verif.Props.CombineMap.combine_pooled",
    "Verif.Props.CombineMap.combine_fails_iff",
    "Verif.Props.CombineMap.combine_missing_group",
    "Verif.Props.CombineMap.combine_between"
   ],
   "note": ""
  },
  {
   "property": "C290",
   "status": "partial",
   "theorems": [
    "Verif.Props.SkOther.hdp_prior_violation",
    "Verif.Props.SkOther.same_of_used",
    "Verif.Props.SkOther.hdp_passes",
    "Verif.Props.SkOther.lda_passes_partial",
    "Verif.Props.SkOther.lda_online_refused"
   ],
   "note": "Violated by the code for the HDP: doc_topic_prior and topic_word_prior are dropped. Proved for the LDA of scikit-learn without mini-batches."
  },
  {
   "property": "C291",
   "status": "partial",
   "theorems": [
    "Verif.Props.SkOther.dictionary_short_violation",
    "Verif.Props.SkOther.dictionary_names_violation",
    "Verif.Props.SkOther.dictionary_tokens",
    "Verif.Props.SkOther.dictionary_complete_partial",
    "Verif.Props.SkOther.dictionary_counts"
   ],
   "note": "Violated by the code: the dictionary ends with the last word that occurs, and the tokens are plain numbers rather than the documented names. The counts are proved for all datasets."
  },
  {
   "property": "C292",
   "status": "partial",
   "theorems": [
    "Verif.Props.Reports.names_violation",
    "Verif.Props.Reports.names_partial",
    "Verif.Props.Reports.latents_missing",
    "Verif.Props.Reports.names_only"
   ],
   "note": "Violated by the code: the underscore before the bound is not removed, so all four documented names are refused with ValueError. What is accepted is the model alone or directly followed by the bound; without latent sizes the model with features ends in UnboundLocalError."
  },
  {
   "property": "C293",
   "status": "partial",
   "theorems": [
    "Verif.Props.Reports.ctm_violation",
    "Verif.Props.Reports.extra_violation",
    "Verif.Props.Reports.stm_partial",
    "Verif.Props.Reports.pattern_spec"
   ],
   "note": "Violated by the code: topic models are saved with _p_0 in the name, which no report pattern has, so none of their files is ever found; folds from 10 on are not found either, and files with anything appended to the name count as folds. Digits of other scripts are not modelled."
  },
  {
   "property": "C294",
   "status": "partial",
   "theorems": [
    "Verif.Props.Reports.error_violation",
    "Verif.Props.Reports.reports_ctm_partial",
    "Verif.Props.Reports.reports_stm_partial",
    "Verif.Props.Reports.report_names"
   ],
   "note": "Violated by the code: a template that cannot be filled ends the generation of all reports with an exception instead of counting zero folds. Otherwise counts and reports are exact. The default template directory, reading and writing are not modelled."
  },
  {
   "property": "C295",
   "status": "proved",
   "theorems": [
    "Verif.Props.Reports.template_filled",
    "Verif.Props.Reports.template_unknown",
    "Verif.Props.Reports.values_spec"
   ],
   "note": "Template.substitute is modelled for ASCII identifiers."
  },
  {
   "property": "C296",
   "status": "partial",
   "theorems": [
    "Verif.Props.ResultTable.table_violation",
    "Verif.Props.ResultTable.table_partial",
    "Verif.Props.ResultTable.table_exact",
    "Verif.Props.ResultTable.table_unique"
   ],
   "note": "Violated by the code: quotes in names and descriptions are escaped twice and come back doubled. The rest of the table is read back exactly. The text of numbers is an arbitrary function without commas, quotes and newlines."
  },
  {
   "property": "C297",
   "status": "partial",
   "theorems": [
    "Verif.Props.PrintedTable.table_violation",
    "Verif.Props.PrintedTable.table_read_partial",
    "Verif.Props.PrintedTable.values_read"
   ],
   "note": "Violated by the code: a table is printed and cannot be read (division by zero) if no document has five links or more. Otherwise the table is read back to the digits printed. float() is an arbitrary function which reads decimal fractions without sign as their values; rounding to floating point is not modelled, and scores are not negative."
  },
  {
   "property": "C298",
   "status": "partial",
   "theorems": [
    "Verif.Props.PrintedTable.run_violation",
    "Verif.Props.PrintedTable.run_read",
    "Verif.Props.PrintedTable.run_partial",
    "Verif.Props.PrintedTable.cutoffs_same"
   ],
   "note": "Violated by the code: the tables and the perplexity exported are those of the first fold, while reciprocal rank and average precision are those of all folds. With a single fold all of them agree."
  },
  {
   "property": "C299",
   "status": "partial",
   "theorems": [
    "Verif.Props.MtmQuery.query_links_violation",
    "Verif.Props.MtmQuery.query_sum",
    "Verif.Props.MtmQuery.query_links_partial"
   ],
   "note": "Violated by the code: the out-links are counted as tokens which no topic explains (emit_counts, mtm3.py:521), so that documents with other numbers of links always get other weights. Only the numbers of links matter. Exact inverses in place of la.inv."
  },
  {
   "property": "C30",
   "status": "proved",
   "theorems": [
    "Verif.Props.SoftSplit.soft_split_spec",
    "Verif.Props.SoftSplit.soft_split_disjoint",
    "Verif.Props.SoftSplit.soft_split_all",
    "Verif.Props.SoftSplit.soft_split_none",
    "Verif.Props.SoftSplit.soft_split_duplicates"
   ],
   "note": "The disjointness clause needs each position to be stored once; soft_split_duplicates shows that it is needed."
  },
  {
   "property": "C300",
   "status": "proved",
   "theorems": [
    "Verif.Props.Renumber.em_train",
    "Verif.Props.Renumber.em_query",
    "Verif.Props.Renumber.vb_train",
    "Verif.Props.Renumber.vb_batch_train",
    "Verif.Props.RenumberCtm.ctm_train",
    "Verif.Props.RenumberCtm.bohning_train",
    "Verif.Props.RenumberCtm.lda_train",
    "Verif.Props.RenumberCtm.lda_query"
   ],
   "note": "The variational bound of lda_vb_python and ctm, the shrunk covariance and the matrix inverse are arbitrary functions that do not depend on the numbers themselves (hypotheses SameBound, SameCov, SameInv)."
  },
  {
   "property": "C301",
   "status": "partial",
   "theorems": [
    "Verif.Props.RenumberCtm.topics_not_alike",
    "Verif.Props.RenumberCtm.first_topic",
    "Verif.Props.Renumber.em_train",
    "Verif.Props.Renumber.em_query",
    "Verif.Props.Renumber.vb_train",
    "Verif.Props.Renumber.vb_batch_train",
    "Verif.Props.RenumberCtm.bohning_train",
    "Verif.Props.RenumberCtm.lda_train",
    "Verif.Props.RenumberCtm.lda_query",
    "Verif.Props.RenumberCtm.ctm_topics_partial"
   ],
   "note": "Violated by the code for the correlated topic model: the weights of the first topic are subtracted in every iteration, so its mean is zero and its prior variance is not estimated like the others. Proved for the other models, and for the correlated topic model if the first topic stays the first."
  },
  {
   "property": "C302",
   "status": "proved",
   "theorems": [
    "Verif.Props.Renumber.em_train",
    "Verif.Props.Renumber.em_query",
    "Verif.Props.Renumber.vb_batch_train",
    "Verif.Props.RenumberCtm.ctm_train",
    "Verif.Props.RenumberCtm.bohning_train",
    "Verif.Props.RenumberCtm.lda_train",
    "Verif.Props.RenumberCtm.lda_query"
   ],
   "note": "Training in mini-batches depends on the order and is not part of the claim. The shrunk covariance is an arbitrary function that does not depend on the order of the samples."
  },
  {
   "property": "C303",
   "status": "partial",
   "theorems": [
    "Verif.Props.Stages.online_stages_violated",
    "Verif.Props.Stages.online_stages",
    "Verif.Props.Stages.em_stages",
    "Verif.Props.Stages.ctm_stages",
    "Verif.Props.Stages.bohning_stages",
    "Verif.Props.Stages.vb_batch_stages_partial",
    "Verif.Props.Stages.lda_stages_partial"
   ],
   "note": "Violated by the code for online LDA in Python: the second stage begins again with the large steps of the first. Proved for EM (with early stops), the correlated topic model, the B\u00f6hning model and batch LDA in Python. For compiled LDA it is proved if the log frequency divides both numbers of iterations; otherwise the model is measured, which normalises it, after other iterations, and nothing is proved."
  },
  {
   "property": "C304",
   "status": "proved",
   "theorems": [
    "Verif.Props.RenumberTokens.gibbs_words",
    "Verif.Props.RenumberTokens.gibbs_query_words",
    "Verif.Props.RenumberTokens.dmr_words",
    "Verif.Props.RenumberTokens.dmr_query_words",
    "Verif.Props.RenumberTokens.cvb_start_words",
    "Verif.Props.RenumberTokens.cvb0_words",
    "Verif.Props.RenumberTokens.cvb_words"
   ],
   "note": "The order of the tokens in a document is that of the columns of the matrix; the claim is about the same order. The optimiser of DMR is an arbitrary function of the samples, which do not depend on the words."
  },
  {
   "property": "C305",
   "status": "proved",
   "theorems": [
    "Verif.Props.RenumberCvb.cvb_start_topics",
    "Verif.Props.RenumberCvb.cvb0_topics",
    "Verif.Props.RenumberCvb.cvb_topics"
   ],
   "note": "Floating point numbers are rational numbers, so sums do not depend on their order. The exponential of the second-order model is an arbitrary positive function. The counts at the start are those of the token distributions (as newQueryState makes them)."
  },
  {
   "property": "C306",
   "status": "proved",
   "theorems": [
    "Verif.Props.RenumberStm.exact_follows",
    "Verif.Props.RenumberStm.uv_train",
    "Verif.Props.RenumberStm.yv_train",
    "Verif.Props.RenumberStm.yv_bohning_train",
    "Verif.Props.RenumberStm.yv_query",
    "Verif.Props.RenumberStm.bohning_query"
   ],
   "note": "The documents of stm_yv_bohning keep their numbers, since their order matters to the code (C145). The least squares solution is an arbitrary function that follows the numbers of topics and features."
  },
  {
   "property": "C307",
   "status": "proved",
   "theorems": [
    "Verif.Props.RenumberLinks.rtm_train",
    "Verif.Props.RenumberLinks.mtm_train",
    "Verif.Props.RenumberLinks.mtm2_train",
    "Verif.Props.RenumberLinks.mtm2_query",
    "Verif.Props.RenumberLinks.mtm3_train",
    "Verif.Props.RenumberLinks.mtm3_query",
    "Verif.Props.RenumberLinks.links_predicted",
    "Verif.Props.RenumberLinks.all_links_predicted"
   ],
   "note": "rtm and mtm visit the documents one after the other, each with what the ones before it left, so their documents keep their numbers. The numerical routines of rtm (weights, convergence, hyperparameters) are arbitrary functions that follow the numbers of the topics; the column of the intercept keeps its number."
  },
  {
   "property": "C308",
   "status": "partial",
   "theorems": [
    "Verif.Props.RenumberScores.scores_depend_on_numbers",
    "Verif.Props.RenumberScores.map_same_partial",
    "Verif.Props.RenumberScores.mrr_same_partial",
    "Verif.Props.RenumberScores.prec_rec_same_partial"
   ],
   "note": "Violated by the code: links with equal scores are ranked by their numbers, and however they are ranked, two corpora that differ in the numbers only have different scores (1 and 1/2). Proved for documents without equal scores; rows hold every number once, cut-offs are positive and every document has a group."
  },
  {
   "property": "C309",
   "status": "proved",
   "theorems": [
    "Verif.Props.RankingUp.map_up",
    "Verif.Props.RankingUp.mrr_up",
    "Verif.Props.RankingUp.prec_rec_up"
   ],
   "note": "Rows hold every number once, expected links are listed once, cut-offs are positive and every document has a group; the ranking is any function that sorts by descending score. With equal scores the order is NumPy's (C308)."
  },
  {
   "property": "C31",
   "status": "proved",
   "theorems": [
    "Verif.Props.Popular.popular_spec",
    "Verif.Props.Popular.hashtag_indices_spec",
    "Verif.Props.Popular.hashtag_empty_word"
   ],
   "note": ""
  },
  {
   "property": "C310",
   "status": "partial",
   "theorems": [
    "Verif.Props.StagesLinks.mtm2_stages",
    "Verif.Props.StagesLinks.mtm3_stages",
    "Verif.Props.StagesLinks.mtm3_stages_violated",
    "Verif.Props.StagesLinks.mtm3_stages_partial",
    "Verif.Props.StagesLinks.mtm_stages_violated",
    "Verif.Props.StagesLinks.mtm_stages_partial",
    "Verif.Props.StagesLinks.rtm_stages_violated",
    "Verif.Props.StagesLinks.rtm_stages_partial"
   ],
   "note": "Violated by the code except in mtm2: mtm3 begins every stage with variances of the in-links of one; mtm computes the maxima of the topics anew and keeps the sums of exponentials that belong to other maxima, if all weights of a topic are below 1e-300; rtm counts the iterations from zero, so stages of five iterations never learn the topic prior. Proved for mtm if every topic has a document with a weight of at least 1e-300, and for rtm with at most five iterations in all; the numerical routines of rtm are arbitrary functions of the state, and those results are equal within the sizes of the tables."
  },
  {
   "property": "C311",
   "status": "proved",
   "theorems": [
    "Verif.Props.StagesStm.yv_stages",
    "Verif.Props.StagesStm.uv_stages"
   ],
   "note": "For stm_uv_vecy_bohning the results are equal within the sizes of the tables, and the inverse depends on the entries of the matrix only."
  },
  {
   "property": "C312",
   "status": "partial",
   "theorems": [
    "Verif.Props.FoldRuns.default_violated",
    "Verif.Props.FoldRuns.default_partial",
    "Verif.Props.FoldRuns.one_fold",
    "Verif.Props.PrintedTable.no_folds"
   ],
   "note": "Violated by the code: the default -1 is passed on as the number of folds, so the evaluations of tags, hashtags and precision and recall of links run no fold and end with AttributeError. The other three run all folds. With a single fold, the default of --folds, only the perplexity is evaluated."
  },
  {
   "property": "C313",
   "status": "partial",
   "theorems": [
    "Verif.Props.FoldRuns.truncated_violated",
    "Verif.Props.FoldRuns.truncated_partial"
   ],
   "note": "Violated by the code: the truncation is not passed to the average precision of links, the second part of the evaluation of hashtags ignores it, precision and recall of links run more folds than there are, and the evaluation of tags fails after the last fold. Proved for perplexity and the evaluation in training documents, and for the others up to the number of folds."
  },
  {
   "property": "C314",
   "status": "proved",
   "theorems": [
    "Verif.Props.Twins.em_words",
    "Verif.Props.Twins.vb_words",
    "Verif.Props.Twins.ctm_words",
    "Verif.Props.Twins.bohning_words",
    "Verif.Props.Twins.uv_words",
    "Verif.Props.Twins.yv_words",
    "Verif.Props.Twins.mtm2_words",
    "Verif.Props.Twins.mtm3_words",
    "Verif.Props.Twins.mtm_words",
    "Verif.Props.Twins.rtm_words",
    "Verif.Props.Twins.lda_words"
   ],
   "note": "Obtained by exchanging the two words, which leaves the corpus and the starting point as they are (C300, C306, C307). In compiled LDA the words of a document may stand in any order. About runs that end normally."
  },
  {
   "property": "C315",
   "status": "proved",
   "theorems": [
    "Verif.Props.Twins.em_docs",
    "Verif.Props.Twins.em_query_docs",
    "Verif.Props.Twins.vb_docs",
    "Verif.Props.Twins.ctm_docs",
    "Verif.Props.Twins.bohning_docs",
    "Verif.Props.Twins.uv_docs",
    "Verif.Props.Twins.yv_docs",
    "Verif.Props.Twins.lda_docs",
    "Verif.Props.Twins.mtm2_docs",
    "Verif.Props.Twins.mtm3_docs"
   ],
   "note": "LDA trained on one batch with all documents. mtm and rtm, which visit the documents in order and change the model between visits, are not covered."
  },
  {
   "property": "C316",
   "status": "proved",
   "theorems": [
    "Verif.Props.Twins.em_topics",
    "Verif.Props.Twins.vb_topics",
    "Verif.Props.Twins.ctm_topics",
    "Verif.Props.Twins.bohning_topics",
    "Verif.Props.Twins.lda_topics",
    "Verif.Props.Twins.mtm_topics",
    "Verif.Props.Twins.mtm2_topics",
    "Verif.Props.Twins.mtm3_topics",
    "Verif.Props.Twins.uv_topics",
    "Verif.Props.Twins.yv_topics",
    "Verif.Props.Twins.rtm_topics"
   ],
   "note": "The correlated topic model fixes the first topic, so topics other than the first are compared. In the models with features the features have to start with the same weights in both topics."
  },
  {
   "property": "C317",
   "status": "partial",
   "theorems": [
    "Verif.Props.Absent.cvb0_unseen_violation",
    "Verif.Props.Absent.cvb2_unseen_violation",
    "Verif.Props.Absent.ctm_unseen_partial",
    "Verif.Props.Absent.bohning_unseen_partial",
    "Verif.Props.Absent.yv_unseen_partial",
    "Verif.Props.Absent.mtm3_unseen_partial",
    "Verif.Props.Absent.em_unseen_partial",
    "Verif.Props.Absent.lda_unseen_partial",
    "Verif.Props.Absent.vb_unseen_partial",
    "Verif.Props.Absent.gibbs_unseen_partial"
   ],
   "note": "Violated by the code in the collapsed models of zero and of second order, whose word_dists divide the counts by their sum and leave the prior out: a word that does not occur has probability zero after training, whatever the prior (cvb0_unseen_violation, cvb2_unseen_violation). Holds for the correlated topic model, with B\u00f6hning's bound too, the model with features stm_yv, the third matrix topic model, mixtures (unless the first iteration already finds nothing to change), both implementations of variational Bayes (in Python without batches) and Gibbs sampling. Not stated for the other models with a table of counts."
  },
  {
   "property": "C318",
   "status": "partial",
   "theorems": [
    "Verif.Props.Absent.lda_empty_violation",
    "Verif.Props.Absent.lda_empty_exact",
    "Verif.Props.Absent.lda_empty_iff",
    "Verif.Props.Absent.gibbs_empty_partial",
    "Verif.Props.Absent.gibbs_query_empty_partial",
    "Verif.Props.Absent.em_query_empty_partial",
    "Verif.Props.Absent.empty_refused_partial",
    "Verif.Props.Cvb0.cvb0_empty_doc",
    "Verif.Props.Absent.bohning_query_empty_partial",
    "Verif.Props.Absent.bohning_fast_empty_violation",
    "Verif.Props.CtmQuery.query_proper"
   ],
   "note": "Violated by the code in queries of variational Bayes, which add the number of documents divided by the number of topics to the prior: with the prior (1, 2) an empty document among three gets the topics (5/12, 7/12) (lda_empty_violation, lda_empty_exact). The topics are those of the prior only if it is the same for all topics (lda_empty_iff). Gibbs sampling gives the normalised prior, in training and in queries; a mixture gives the weights of its classes in queries; training of mixtures, of variational Bayes in Python, of the collapsed model and of the first matrix topic model refuses such documents. Queries of the correlated topic model give the mean of the prior (query_proper), and so does the model with B\u00f6hning's bound in its accurate mode; in its fast mode it returns the softmax of the weights given (bohning_fast_empty_violation). Not stated for the models with features or links."
  },
  {
   "property": "C319",
   "status": "partial",
   "theorems": [
    "Verif.Props.UnusedFeature.lsq_unused_violation",
    "Verif.Props.UnusedFeature.lsq_unused_exact",
    "Verif.Props.UnusedFeature.yv_unused_partial",
    "Verif.Props.UnusedFeature.uv_unused_partial",
    "Verif.Props.UnusedFeature.dmr_unused_partial",
    "Verif.Props.UnusedFeature.query_unused",
    "Verif.Props.UnusedFeature.dmr_query_unused"
   ],
   "note": "Violated by the code in stm_yv_bohning, which fits the weights by least squares without the prior and never updates the factors: the weight is zero whatever the factors are (lsq_unused_violation, lsq_unused_exact, for any solver that returns the shortest solution as NumPy's does). Holds in stm_yv and stm_uv_vecy_bohning with an exact inverse, where the weights are the product of the factors after every iteration, and in the topic model with features on the priors for weights that minimise the objective; that the optimiser of SciPy finds a minimum is not modelled. Queries do not depend on weights of features that no queried document has."
  },
  {
   "property": "C32",
   "status": "proved",
   "theorems": [
    "Verif.Props.Drivers.perplexity_driver"
   ],
   "note": "Also shown: when no fold succeeds the driver ends with ZeroDivisionError while printing the totals."
  },
  {
   "property": "C320",
   "status": "proved",
   "theorems": [
    "Verif.Props.NoLinks.topics_without_links",
    "Verif.Props.NoLinks.train_without_links",
    "Verif.Props.NoLinks.bound_without_links"
   ],
   "note": "For any rule of stopping that looks at the words, topics and priors only; a rule that looks at the bound is of this kind by bound_without_links. Training only, as queries of this model raise an exception."
  },
  {
   "property": "C321",
   "status": "partial",
   "theorems": [
    "Verif.Props.UnlinkedDocs.map_unlinked_violation",
    "Verif.Props.UnlinkedDocs.map_unlinked_exact",
    "Verif.Props.UnlinkedDocs.map_order_partial",
    "Verif.Props.UnlinkedDocs.mrr_unlinked",
    "Verif.Props.UnlinkedDocs.prec_rec_unlinked"
   ],
   "note": "Violated by the code in the mean average precision, which leaves documents without expected links out of the sum but divides by the number of all documents: it is the score of the other documents multiplied with their share of the corpus (map_unlinked_exact), so that a perfect prediction scores less than one (map_unlinked_violation). Which of two predictions scores higher is not affected (map_order_partial). Holds for the mean reciprocal rank and for precision and recall."
  },
  {
   "property": "C322",
   "status": "partial",
   "theorems": [
    "Verif.Props.Parts.expected_single_violation",
    "Verif.Props.Parts.expected_parts_partial",
    "Verif.Props.Parts.ctm_parts",
    "Verif.Props.Parts.word_parts",
    "Verif.Props.Parts.mixture_parts",
    "Verif.Props.Parts.perplexity_between"
   ],
   "note": "Violated by the code in the expected log-likelihood of mixtures, which raises an IndexError for a part with a single document (expected_single_violation) and adds up otherwise (expected_parts_partial). Holds for the correlated topic models, the models with features, LDA, the recommenders, the mixtures' point log-likelihoods, the relational topic model and the first matrix topic model. The other matrix topic models and the self-linked LDA are not covered, because the probabilities of their links depend on all documents."
  },
  {
   "property": "C323",
   "status": "proved",
   "theorems": [
    "Verif.Props.ExtraPrediction.map_extra",
    "Verif.Props.ExtraPrediction.mrr_extra",
    "Verif.Props.ExtraPrediction.prec_rec_extra"
   ],
   "note": "For links that are stored once and scores that no other link of the same document has: the order of links with equal scores is left to the sorting algorithm."
  },
  {
   "property": "C324",
   "status": "partial",
   "theorems": [
    "Verif.Props.FoundPrediction.mrr_found_violation",
    "Verif.Props.FoundPrediction.mrr_found_partial",
    "Verif.Props.FoundPrediction.map_found",
    "Verif.Props.FoundPrediction.prec_rec_found"
   ],
   "note": "Violated by the code in the mean reciprocal rank, which averages over the expected links that were predicted only: predicting a second, lower ranked expected link lowers it from 1 to 3/4 (mrr_found_violation). The score times the number n of expected links that are predicted never falls, so that it is lowered by a factor of n/(n+1) at most (mrr_found_partial). Holds for mean average precision (map_found) and for precision and recall (prec_rec_found), for links stored once with scores of their own."
  },
  {
   "property": "C325",
   "status": "proved",
   "theorems": [
    "Verif.Props.LinkParts.map_parts",
    "Verif.Props.LinkParts.mrr_parts",
    "Verif.Props.LinkParts.mrr_part_without",
    "Verif.Props.LinkParts.prec_rec_link_parts",
    "Verif.Props.LinkParts.weighted_between"
   ],
   "note": "For groups that contain the numbers of links of all documents, as an exception is raised otherwise (C27), and, for the mean reciprocal rank, links that are stored once."
  },
  {
   "property": "C326",
   "status": "proved",
   "theorems": [
    "Verif.Props.ScoreOrder.only_order_matters",
    "Verif.Props.ScoreOrder.increasing_scores"
   ],
   "note": "For scores that no two links of a document share: the order of equal scores is left to the sorting algorithm. Results are the same including exceptions."
  },
  {
   "property": "C327",
   "status": "partial",
   "theorems": [
    "Verif.Props.PerfectPrediction.mrr_perfect_violation",
    "Verif.Props.PerfectPrediction.mrr_perfect_exact",
    "Verif.Props.PerfectPrediction.mrr_best_partial",
    "Verif.Props.PerfectPrediction.prec_rec_best",
    "Verif.Props.PerfectPrediction.map_best"
   ],
   "note": "Violated by the code in the mean reciprocal rank, where each of n expected links counts with its own rank: a perfect prediction of two or more links in a document scores below one, and predicting only one of them scores one (mrr_perfect_violation). The score of a perfect prediction is the mean of 1, 1/2, ..., 1/n (mrr_perfect_exact), and is the highest among predictions that contain all expected links (mrr_best_partial). Holds for precision and recall (prec_rec_best) and for mean average precision (map_best)."
  },
  {
   "property": "C328",
   "status": "proved",
   "theorems": [
    "Verif.Props.OwnWords.word_own",
    "Verif.Props.OwnWords.ctm_own",
    "Verif.Props.OwnWords.mixture_own",
    "Verif.Props.OwnWords.perplexity_own",
    "Verif.Props.OwnWords.own_attained"
   ],
   "note": "For LDA, the recommenders, the mixture sampler, the relational topic model, the first matrix topic model (word_own), the correlated topic models, the models with features (ctm_own), and the mixture fitted by expectation maximisation with the topics of the corpus (mixture_own), with words that are stored once in a document and weights that are not negative, as training leaves them."
  },
  {
   "property": "C329",
   "status": "proved",
   "theorems": [
    "Verif.Props.ScaledCounts.word_scaled",
    "Verif.Props.ScaledCounts.linked_scaled",
    "Verif.Props.ScaledCounts.ctm_scaled",
    "Verif.Props.ScaledCounts.perplexity_scaled",
    "Verif.Props.ScaledCounts.mixture_not_scaled"
   ],
   "note": "For LDA, the recommenders, the mixture sampler (whose code gives each word a topic, see C251), the relational topic model, the first matrix topic model (word_scaled), the self-linked LDA and the other matrix topic models where their code does not read outside its tables (linked_scaled), the correlated topic models and the models with features (ctm_scaled); mixture_not_scaled is the exception named in the property."
  },
  {
   "property": "C33",
   "status": "partial",
   "theorems": [
    "Verif.Props.Drivers.hashtag_truncation_wrong",
    "Verif.Props.Drivers.hashtag_ignores_truncation",
    "Verif.Props.Drivers.perplexity_truncation_partial",
    "Verif.Props.Drivers.tag_truncation_partial"
   ],
   "note": "Violated by the code: the hashtag driver always runs every fold; the perplexity and the tag driver honour the truncation."
  },
  {
   "property": "C330",
   "status": "proved",
   "theorems": [
    "Verif.Props.MergedWords.word_merged",
    "Verif.Props.MergedWords.matrix_merged",
    "Verif.Props.MergedWords.ctm_merged",
    "Verif.Props.MergedWords.mixture_merged",
    "Verif.Props.MergedWords.perplexity_merged"
   ],
   "note": "For LDA, the recommenders, the mixture sampler, the relational topic model, the first matrix topic model (word_merged), the other matrix topic models where their code does not read outside its tables (matrix_merged), the correlated topic models, the models with features (ctm_merged), and the mixture fitted by expectation maximisation with the topics of the corpus (mixture_merged), with weights that are not negative."
  },
  {
   "property": "C34",
   "status": "proved",
   "theorems": [
    "Verif.Props.SelectUsers.contribs_returns_iff",
    "Verif.Props.SelectUsers.contribs_bounds"
   ],
   "note": "Returns exactly when there is a group and at least the target is available; also bounds the total from both sides."
  },
  {
   "property": "C35",
   "status": "proved",
   "theorems": [
    "Verif.Props.SelectUsers.users_cover_minimally",
    "Verif.Props.SelectUsers.users_fail_iff"
   ],
   "note": ""
  },
  {
   "property": "C36",
   "status": "proved",
   "theorems": [
    "Verif.Props.SelectUsers.read_counts_spec",
    "Verif.Props.SelectUsers.user_name_spec",
    "Verif.Props.SelectUsers.strip_spec"
   ],
   "note": ""
  },
  {
   "property": "C37",
   "status": "proved",
   "theorems": [
    "Verif.Props.TextTools.no_parenthesis_unchanged",
    "Verif.Props.TextTools.parenthesised_removed",
    "Verif.Props.TextTools.unclosed_dropped",
    "Verif.Props.TextTools.cases_complete",
    "Verif.Props.TextTools.eliminate_idempotent"
   ],
   "note": "cases_complete shows the three cases cover every text."
  },
  {
   "property": "C38",
   "status": "partial",
   "theorems": [
    "Verif.Props.TextTools.quote_round_trip_violation",
    "Verif.Props.TextTools.quoted_reads_doubled",
    "Verif.Props.TextTools.round_trip_iff_partial"
   ],
   "note": "Violated by the code: a double quote is escaped twice; values without one survive, and only those."
  },
  {
   "property": "C39",
   "status": "proved",
   "theorems": [
    "Verif.Props.TextTools.roll_up_average",
    "Verif.Props.TextTools.roll_up_fails_iff",
    "Verif.Props.TextTools.roll_up_between"
   ],
   "note": ""
  },
  {
   "property": "C40",
   "status": "proved",
   "theorems": [
    "Verif.Props.TextTools.author_ids_bijection",
    "Verif.Props.TextTools.line_authors_spec"
   ],
   "note": ""
  },
  {
   "property": "C41",
   "status": "proved",
   "theorems": [
    "Verif.Props.VecTrans.vec_transpose_moves",
    "Verif.Props.VecTrans.vec_transpose_involution",
    "Verif.Props.VecTrans.vec_transpose_not_dividing"
   ],
   "note": "The last theorem records that a p not dividing the row count writes out of bounds (outside the property)."
  },
  {
   "property": "C42",
   "status": "proved",
   "theorems": [
    "Verif.Props.VecTrans.sparse_eq_dense"
   ],
   "note": ""
  },
  {
   "property": "C43",
   "status": "proved",
   "theorems": [
    "Verif.Props.VecTrans.trans_matrix_maps_vec",
    "Verif.Props.VecTrans.trans_matrix_permutation"
   ],
   "note": ""
  },
  {
   "property": "C44",
   "status": "proved",
   "theorems": [
    "Verif.Props.SparseKernels.csr_indices_spec",
    "Verif.Props.SparseKernels.csr_indices_triples"
   ],
   "note": ""
  },
  {
   "property": "C45",
   "status": "proved",
   "theorems": [
    "Verif.Props.SparseKernels.quotient_of_dot_spec",
    "Verif.Props.SparseKernels.product_of_dot_spec",
    "Verif.Props.SparseKernels.quotient_of_normed_dot_spec",
    "Verif.Props.SparseKernels.product_of_safe_ln_dot_spec"
   ],
   "note": ""
  },
  {
   "property": "C46",
   "status": "partial",
   "theorems": [
    "Verif.Props.SparseKernels.quotient_of_dot_range_wrong",
    "Verif.Props.SparseKernels.kernel_shape",
    "Verif.Props.SparseKernels.quotient_of_dot_range_reads",
    "Verif.Props.SparseKernels.quotient_of_dot_range_partial",
    "Verif.Props.SparseKernels.product_of_safe_ln_dot_range_partial"
   ],
   "note": "Violated by the code for ranges preceded by stored entries (the data index is not advanced over skipped rows): witness and exact behaviour; correct when nothing is stored before the range, in particular for start = 0."
  },
  {
   "property": "C47",
   "status": "proved",
   "theorems": [
    "Verif.Props.Numerics.rowwise_is_softmax",
    "Verif.Props.Numerics.colwise_is_softmax",
    "Verif.Props.Numerics.rowwise_distribution",
    "Verif.Props.Numerics.colwise_distribution",
    "Verif.Props.Numerics.rowwise_shift",
    "Verif.Props.Numerics.colwise_shift"
   ],
   "note": "Over the reals."
  },
  {
   "property": "C48",
   "status": "proved",
   "theorems": [
    "Verif.Props.Numerics.log1pexp_f8",
    "Verif.Props.Numerics.log1pexp_f4",
    "Verif.Props.Numerics.log1pexp_np",
    "Verif.Props.Numerics.scaled_sum_error"
   ],
   "note": "Over the reals; the errors are those of the formulas, not of rounding."
  },
  {
   "property": "C49",
   "status": "partial",
   "theorems": [
    "Verif.Props.Numerics.scaled_violation",
    "Verif.Props.Numerics.scale_ignored",
    "Verif.Props.Numerics.scaled_right_iff_partial"
   ],
   "note": "Violated by the code: the scale is never read."
  },
  {
   "property": "C50",
   "status": "partial",
   "theorems": [
    "Verif.Props.Numerics.no_early_convergence",
    "Verif.Props.Numerics.converged_iff",
    "Verif.Props.Numerics.decreasing_bound_converges",
    "Verif.Props.Numerics.converged_flat_partial"
   ],
   "note": "Violated by the code: any decrease of the bound counts as convergence; exact condition and the claim for bounds that have not decreased."
  },
  {
   "property": "C51",
   "status": "proved",
   "theorems": [
    "Verif.Props.Gibbs.initial_tables_consistent",
    "Verif.Props.Gibbs.sampling_keeps_tables_consistent",
    "Verif.Props.Gibbs.training_tables_consistent",
    "Verif.Props.Gibbs.training_totals",
    "Verif.Props.Gibbs.training_returns"
   ],
   "note": "For at most 256 topics, which the construction of a model enforces (modelChecks_ok)."
  },
  {
   "property": "C52",
   "status": "proved",
   "theorems": [
    "Verif.Props.Gibbs.sweep_visits_every_token_once",
    "Verif.Props.Gibbs.randLim_range"
   ],
   "note": ""
  },
  {
   "property": "C53",
   "status": "proved",
   "theorems": [
    "Verif.Props.Gibbs.query_sampling_leaves_model"
   ],
   "note": ""
  },
  {
   "property": "C54",
   "status": "partial",
   "theorems": [
    "Verif.Props.Gibbs.chosen_topic_valid_partial",
    "Verif.Props.Gibbs.chosen_topic_has_weight",
    "Verif.Props.Gibbs.zero_draw_selects_no_topic",
    "Verif.Props.Gibbs.zero_draw_writes_outside"
   ],
   "note": "Violated by the code for a draw of exactly zero, where index -1 is used; valid for every other draw."
  },
  {
   "property": "C55",
   "status": "proved",
   "theorems": [
    "Verif.Props.Gibbs.flatten_preserves_counts",
    "Verif.Props.Gibbs.flatten_rejects"
   ],
   "note": ""
  },
  {
   "property": "C56",
   "status": "proved",
   "theorems": [
    "Verif.Props.Gibbs.training_takes_samples",
    "Verif.Props.Gibbs.burn_in_not_sampled",
    "Verif.Props.Gibbs.estimates_defined_iff",
    "Verif.Props.Gibbs.plan_fields",
    "Verif.Props.Gibbs.default_plan"
   ],
   "note": ""
  },
  {
   "property": "C57",
   "status": "proved",
   "theorems": [
    "Verif.Props.Gibbs.estimates_are_distributions"
   ],
   "note": ""
  },
  {
   "property": "C58",
   "status": "partial",
   "theorems": [
    "Verif.Props.Gibbs.query_changes_word_dists",
    "Verif.Props.Gibbs.query_rescales_word_dists",
    "Verif.Props.Gibbs.query_preserves_word_dists_partial"
   ],
   "note": "Violated by the code: the word distributions are multiplied by the ratio of the numbers of samples."
  },
  {
   "property": "C59",
   "status": "partial",
   "theorems": [
    "Verif.Props.Dmr.training_inside_buffer_iff",
    "Verif.Props.Dmr.default_training_plan",
    "Verif.Props.Dmr.training_inside_buffer_partial",
    "Verif.Props.Dmr.query_inside_buffer_iff",
    "Verif.Props.Dmr.default_query_plan"
   ],
   "note": "Violated by the code: training with the default plan for 1 to 49 iterations and every default query of 20 or more iterations write outside of the buffer."
  },
  {
   "property": "C60",
   "status": "partial",
   "theorems": [
    "Verif.Props.Dmr.updates_get",
    "Verif.Props.Dmr.first_update_partial",
    "Verif.Props.Dmr.second_update_gets_zeros"
   ],
   "note": "Violated by the code from the second update on: it is given zeros for the earlier samples."
  },
  {
   "property": "C61",
   "status": "proved",
   "theorems": [
    "Verif.Props.Cvb0.cvb0_iterate_consistent",
    "Verif.Props.Cvb0.newQueryState_consistent",
    "Verif.Props.Cvb0.cvb0_counts_are_sums",
    "Verif.Props.Cvb0.cvb0_totals"
   ],
   "note": ""
  },
  {
   "property": "C62",
   "status": "proved",
   "theorems": [
    "Verif.Props.Cvb0.cvb0_query",
    "Verif.Props.Cvb0.cvb0_train_first",
    "Verif.Props.Cvb0.cvb0_train_refine",
    "Verif.Props.Cvb0.cvb0_scoring_restores",
    "Verif.Props.Cvb0.cvb0_empty_doc"
   ],
   "note": ""
  },
  {
   "property": "C63",
   "status": "partial",
   "theorems": [
    "Verif.Props.Cvb2.cvb64_iterate_vars",
    "Verif.Props.Cvb2.cvb64_variances_are_sums",
    "Verif.Props.Cvb2.cvb32_first_iteration",
    "Verif.Props.Cvb2.cvb32_variance_too_large",
    "Verif.Props.Cvb2.cvb32_partial"
   ],
   "note": "Violated by the single precision code; proved for double precision."
  },
  {
   "property": "C64",
   "status": "partial",
   "theorems": [
    "Verif.Props.Cvb2.cvb64_refine",
    "Verif.Props.Cvb2.cvb64_refine_loses_counts",
    "Verif.Props.Cvb2.cvb64_train_first_partial"
   ],
   "note": "Violated by the code: refining loses the topic totals of the first fit."
  },
  {
   "property": "C65",
   "status": "partial",
   "theorems": [
    "Verif.Props.Segments.cvb_exact",
    "Verif.Props.Segments.cvb_at_most",
    "Verif.Props.Segments.cvb_stop_reason",
    "Verif.Props.Segments.cvb_too_many",
    "Verif.Props.Segments.vb_exact",
    "Verif.Props.Segments.vb_early",
    "Verif.Props.Segments.vb_large_lf",
    "Verif.Props.Segments.vb_f64_fails",
    "Verif.Props.Segments.svb_f64_fails",
    "Verif.Props.Segments.svb_f32_fails",
    "Verif.Props.Segments.svb_f32_single_partial"
   ],
   "note": "Violated by the code for a log frequency larger than the iterations (CVB0 and CVB run longer, variational Bayes raises IndexError), and because variational Bayes in double precision cannot be trained; proved otherwise."
  },
  {
   "property": "C66",
   "status": "proved",
   "theorems": [
    "Verif.Props.Vb.vb_vocab",
    "Verif.Props.Vb.vb_mass",
    "Verif.Props.Vb.iterate1_mass",
    "Verif.Props.Vb.svb_no_batch"
   ],
   "note": ""
  },
  {
   "property": "C67",
   "status": "proved",
   "theorems": [
    "Verif.Props.Vb.three_rounds",
    "Verif.Props.Vb.rounds_idempotent",
    "Verif.Props.Vb.vb_total"
   ],
   "note": ""
  },
  {
   "property": "C68",
   "status": "proved",
   "theorems": [
    "Verif.Props.MomEm.em_proper",
    "Verif.Props.MomEm.em_unlogged"
   ],
   "note": ""
  },
  {
   "property": "C69",
   "status": "proved",
   "theorems": [
    "Verif.Props.MomEm.em_query",
    "Verif.Props.MomEm.em_query_independent",
    "Verif.Props.MomEm.em_query_zero"
   ],
   "note": ""
  },
  {
   "property": "C70",
   "status": "partial",
   "theorems": [
    "Verif.Props.MomGibbs.hard_memberships",
    "Verif.Props.MomGibbs.weights_exact",
    "Verif.Props.MomGibbs.weights_violated",
    "Verif.Props.MomGibbs.preference_inverted",
    "Verif.Props.MomGibbs.weights_nonneg_partial"
   ],
   "note": "Memberships are proved. Violated by the code for the weights: they are the prior minus one plus the number of other documents, so they can be negative."
  },
  {
   "property": "C71",
   "status": "partial",
   "theorems": [
    "Verif.Props.MomGibbs.short_training_fails",
    "Verif.Props.MomGibbs.short_query_fails",
    "Verif.Props.MomGibbs.single_query_nan",
    "Verif.Props.MomGibbs.long_query_partial"
   ],
   "note": "Violated by the code for default plans of fewer than ten iterations."
  },
  {
   "property": "C72",
   "status": "partial",
   "theorems": [
    "Verif.Props.VbPython.dirichlet_of_means",
    "Verif.Props.VbPython.means_of_dirichlet",
    "Verif.Props.VbPython.measurement_undisturbing",
    "Verif.Props.VbPython.amari_disturbs"
   ],
   "note": "The round trips and the measuring functions are proved. Violated by the code in training with the algorithm amari, which converts twice in the same direction."
  },
  {
   "property": "C73",
   "status": "proved",
   "theorems": [
    "Verif.Props.VbPython.visits_cyclic",
    "Verif.Props.VbPython.visits_fair",
    "Verif.Props.VbPython.pass_complete"
   ],
   "note": ""
  },
  {
   "property": "C74",
   "status": "partial",
   "theorems": [
    "Verif.Props.VbPython.query_overwrites_model",
    "Verif.Props.VbPython.query_zero_partial"
   ],
   "note": "Violated by the code for every batch plan with at least one iteration."
  },
  {
   "property": "C75",
   "status": "partial",
   "theorems": [
    "Verif.Props.VbPython.algorithm_overridden",
    "Verif.Props.VbPython.algorithm_recorded_partial"
   ],
   "note": "Violated by the code for positive batch sizes."
  },
  {
   "property": "C76",
   "status": "partial",
   "theorems": [
    "Verif.Props.Sklearn.resume_requires",
    "Verif.Props.Sklearn.failed_resume_leaves_model",
    "Verif.Props.Sklearn.untrained_rejected",
    "Verif.Props.Sklearn.resume_rejected_partial"
   ],
   "note": "Violated by the code: a fit that is rejected because it cannot resume leaves a new, untrained model behind if there was none. Proved otherwise, over all call histories."
  },
  {
   "property": "C77",
   "status": "partial",
   "theorems": [
    "Verif.Props.Sklearn.fit_transform_plain_fails",
    "Verif.Props.Sklearn.fit_transform_dataset_partial"
   ],
   "note": "Violated by the code for every plain matrix; proved for dataset objects."
  },
  {
   "property": "C78",
   "status": "partial",
   "theorems": [
    "Verif.Props.Sklearn.score_both",
    "Verif.Props.Sklearn.score_bound_of_point",
    "Verif.Props.Sklearn.score_bound_of_nothing",
    "Verif.Props.Sklearn.score_point_partial",
    "Verif.Props.Sklearn.score_nothing_partial",
    "Verif.Props.Sklearn.score_completion_partial"
   ],
   "note": "Violated by the code: bound-based methods without a representation never succeed."
  },
  {
   "property": "C79",
   "status": "partial",
   "theorems": [
    "Verif.Props.Numerics.mixture_score_gap",
    "Verif.Props.Numerics.mixture_score_gap_rows",
    "Verif.Props.Numerics.single_component_partial",
    "Verif.Props.Numerics.single_row_fails"
   ],
   "note": "Violated by the code: the score exceeds the log-likelihood by at least one and at most the number of components, for every document."
  },
  {
   "property": "C80",
   "status": "partial",
   "theorems": [
    "Verif.Props.LinkPred.lro_complete",
    "Verif.Props.LinkPred.lda_complete",
    "Verif.Props.LinkPred.rtm_complete",
    "Verif.Props.LinkPred.tfidf_loses_links",
    "Verif.Props.LinkPred.tfidf_complete_partial"
   ],
   "note": "Proved for the LDA similarities, the LRO model and the relational model; violated by the code for TF-IDF: if the first expected link of a document has an empty representation, all its links are lost. Rounding errors are not modelled."
  },
  {
   "property": "C81",
   "status": "proved",
   "theorems": [
    "Verif.Props.Rtm.links_once",
    "Verif.Props.Rtm.links_missed_unsorted"
   ],
   "note": "Sorted rows, as the property says; unsorted rows lose links."
  },
  {
   "property": "C82",
   "status": "partial",
   "theorems": [
    "Verif.Props.Prune.rectangular_links_lose_columns"
   ],
   "note": "Violated by the code: witness proved."
  },
  {
   "property": "C83",
   "status": "partial",
   "theorems": [
    "Verif.Props.VecTrans.vec_transpose_other_dtypes",
    "Verif.Props.VecTrans.vec_transpose_dtypes_partial"
   ],
   "note": "Violated by the code: both fallbacks raise for every input (dense: AttributeError, sparse: TypeError for the float shape). The partial theorem covers the compiled types."
  },
  {
   "property": "C84",
   "status": "partial",
   "theorems": [
    "Verif.Props.Evals.map_missing_link_perfect",
    "Verif.Props.Evals.map_missing_link",
    "Verif.Props.Evals.map_missing_partial"
   ],
   "note": "Violated by the code: a document all of whose retrieved links are expected scores 1 although expected links are missing; exact contribution of a missing link; the partial theorem covers rankings that contain every expected link."
  },
  {
   "property": "C85",
   "status": "partial",
   "theorems": [
    "Verif.Props.TagEval.tag_map_blind",
    "Verif.Props.TagEval.tag_map_constant",
    "Verif.Props.Drivers.clip_spec",
    "Verif.Props.TagEval.tag_map_candidates_partial"
   ],
   "note": "Violated by the code: predictions are computed only at the positions of the held-out tags, so the mean average precision is the same for all models; the partial theorem is about predictions at a larger set of positions."
  },
  {
   "property": "C86",
   "status": "partial",
   "theorems": [
    "Verif.Props.Numerics.log1pexp_not_monotone",
    "Verif.Props.Numerics.log1pexp_monotone_partial"
   ],
   "note": "Violated by the code at the seam at -17; drops are at most 9.4e-15 and none occurs within the regions shown."
  },
  {
   "property": "C87",
   "status": "proved",
   "theorems": [
    "Verif.Props.Numerics.safe_log_clips",
    "Verif.Props.Numerics.safe_log_spec"
   ],
   "note": ""
  },
  {
   "property": "C88",
   "status": "proved",
   "theorems": [
    "Verif.Props.Numerics.safe_x_log_x_spec"
   ],
   "note": ""
  },
  {
   "property": "C89",
   "status": "proved",
   "theorems": [
    "Verif.Props.Numerics.lse_spec"
   ],
   "note": ""
  },
  {
   "property": "C90",
   "status": "proved",
   "theorems": [
    "Verif.Props.Numerics.safe_det_spec"
   ],
   "note": ""
  },
  {
   "property": "C91",
   "status": "partial",
   "theorems": [
    "Verif.Props.Dmr.featureless_prior_zero",
    "Verif.Props.Dmr.featureless_single_word_fails",
    "Verif.Props.Dmr.negative_weight_negative_prior",
    "Verif.Props.Dmr.priors_positive_partial",
    "Verif.Props.Dmr.initial_weights_positive",
    "Verif.Props.Dmr.initial_prior"
   ],
   "note": "Violated by the code: the sampler's prior is the linear predictor, not its exponential."
  },
  {
   "property": "C92",
   "status": "partial",
   "theorems": [
    "Verif.Props.Gibbs.single_document_fails",
    "Verif.Props.Gibbs.several_documents_partial"
   ],
   "note": "Violated by the code for a single document."
  },
  {
   "property": "C93",
   "status": "proved",
   "theorems": [
    "Verif.Props.Cvb0.cvb0_update"
   ],
   "note": ""
  },
  {
   "property": "C94",
   "status": "partial",
   "theorems": [
    "Verif.Props.Cvb0.cvb0_resume_counts_twice",
    "Verif.Props.Cvb0.cvb0_resume_violated",
    "Verif.Props.Cvb0.cvb0_resume_partial"
   ],
   "note": "Violated by the code: with a kept query state every document is counted twice."
  },
  {
   "property": "C95",
   "status": "partial",
   "theorems": [
    "Verif.Props.Cvb2.copy_exact",
    "Verif.Props.Cvb2.copy_violated",
    "Verif.Props.Cvb2.copy_of_trained_differs",
    "Verif.Props.Cvb2.copy_partial"
   ],
   "note": "Violated by the code."
  },
  {
   "property": "C96",
   "status": "partial",
   "theorems": [
    "Verif.Props.Segments.vb_no_precision",
    "Verif.Props.Segments.vb_f64_fails",
    "Verif.Props.Segments.svb_f64_fails",
    "Verif.Props.Segments.svb_f32_fails",
    "Verif.Props.Segments.vb_precision_partial"
   ],
   "note": "Violated by the code: no precision allows both training and querying."
  },
  {
   "property": "C97",
   "status": "partial",
   "theorems": [
    "Verif.Props.Vb.wordDists_value",
    "Verif.Props.Vb.wordDists_unchanged_iff",
    "Verif.Props.Vb.reading_changes_trained",
    "Verif.Props.Vb.train_returns_normalised",
    "Verif.Props.Vb.reading_twice_partial"
   ],
   "note": "Violated by the code: reading normalises the model in place."
  },
  {
   "property": "C98",
   "status": "partial",
   "theorems": [
    "Verif.Props.Vb.svb_never_learns",
    "Verif.Props.Vb.svb_learns_partial"
   ],
   "note": "Violated by the code: the batch counter is never advanced."
  },
  {
   "property": "C99",
   "status": "proved",
   "theorems": [
    "Verif.Props.Cvb2.cvb64_query"
   ],
   "note": ""
  }
 ]
}