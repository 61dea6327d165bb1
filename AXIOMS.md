# Axioms of the theorems in the manifest

Output of `#print axioms`, grouped.

## Axioms: none

* `Verif.Props.Copies.data_copy`
* `Verif.Props.Copies.declared_filled`
* `Verif.Props.Copies.wrapper_copy_raises`
* `Verif.Props.Cvb2.copy_exact`
* `Verif.Props.Cvb2.copy_partial`
* `Verif.Props.LinkPred.no_predictor_for_all`
* `Verif.Props.LinkPred.predictor_callable_partial`
* `Verif.Props.Pretrained.fresh_partial`
* `Verif.Props.Pretrained.fresh_violation`
* `Verif.Props.RunCli.file_clean`
* `Verif.Props.Seeding.dmr_reproducible`
* `Verif.Props.Seeding.gibbs_draws`
* `Verif.Props.Seeding.interference`
* `Verif.Props.SkWrapped.batch_partial`
* `Verif.Props.SkWrapped.online_raises`
* `Verif.Props.Stm.debug_violation`
* `Verif.Props.StmModel.dense_features_partial`
* `Verif.Props.StmModel.dense_features_violation`
* `Verif.Props.VecTrans.vec_transpose_not_dividing`

## Axioms: `propext`

* `Verif.Props.Bohning.topicDists_violation`
* `Verif.Props.Copies.copy_succeeds`
* `Verif.Props.Copies.data_with_changes`
* `Verif.Props.CrossVal.folds_overlap_witness`
* `Verif.Props.Cvb2.copy_violated`
* `Verif.Props.Dmr.training_inside_buffer_partial`
* `Verif.Props.Gibbs.flatten_rejects`
* `Verif.Props.Mtm.attributes_missing`
* `Verif.Props.Mtm.attributes_present_partial`
* `Verif.Props.Pretrained.link_split_exact`
* `Verif.Props.Pretrained.link_split_violation`
* `Verif.Props.Reports.extra_violation`
* `Verif.Props.ResultTable.table_unique`
* `Verif.Props.RunCli.mask_none`
* `Verif.Props.RunCli.run_violation`
* `Verif.Props.RunOptions.debug_partial`
* `Verif.Props.RunOptions.debug_violation`
* `Verif.Props.RunOptions.plan_partial`
* `Verif.Props.RunOptions.vocab_prior_partial`
* `Verif.Props.RunOptions.vocab_prior_violation`
* `Verif.Props.Seeding.fit_depends`
* `Verif.Props.Segments.svb_f32_single_partial`
* `Verif.Props.Segments.vb_f64_fails`
* `Verif.Props.SingleDoc.single_document_violation`
* `Verif.Props.SkOther.hdp_passes`
* `Verif.Props.SkOther.kept_iff_partial`
* `Verif.Props.SkOther.lda_online_refused`
* `Verif.Props.SkOther.lda_passes_partial`
* `Verif.Props.Sklearn.fit_transform_dataset_partial`
* `Verif.Props.Sklearn.score_both`
* `Verif.Props.Sklearn.score_bound_of_point`
* `Verif.Props.Sklearn.score_completion_partial`
* `Verif.Props.Sklearn.score_forgets`
* `Verif.Props.Sklearn.score_missing_functions`
* `Verif.Props.Sklearn.score_nothing_partial`
* `Verif.Props.Sklearn.score_point_partial`
* `Verif.Props.Sklearn.score_query_partial`
* `Verif.Props.Sklearn.untrained_rejected`
* `Verif.Props.Sklearn.zero_iterations_ignored`
* `Verif.Props.SparseOut.int_quotient_and_log_raise`
* `Verif.Props.StmVecY.query_fails`
* `Verif.Props.Stopping.all_loops`
* `Verif.Props.TextTools.eliminate_idempotent`
* `Verif.Props.TextTools.no_parenthesis_unchanged`
* `Verif.Props.TextTools.quoted_reads_doubled`

## Axioms: `Quot.sound`, `propext`

* `Verif.Props.Copies.data_binary_violation`
* `Verif.Props.Copies.data_changes_partial`
* `Verif.Props.CrossVal.crossValid_rejects`
* `Verif.Props.CrossVal.held_out_twice_otherwise`
* `Verif.Props.DataSetOps.binary_explicit_zero`
* `Verif.Props.DataSetOps.binary_spec`
* `Verif.Props.DataSetOps.categories_accepted_iff`
* `Verif.Props.DataSetOps.categories_roundtrip`
* `Verif.Props.DataSetOps.categories_roundtrip_no_final_newline`
* `Verif.Props.DataSetOps.dropcols_disagree_out_of_range`
* `Verif.Props.DataSetOps.min_freq_no_dict`
* `Verif.Props.DataSetSplit.limit_not_applied`
* `Verif.Props.DataSetSplit.limit_partial`
* `Verif.Props.Drivers.hashtag_ignores_truncation`
* `Verif.Props.Drivers.hashtag_truncation_wrong`
* `Verif.Props.Drivers.tag_truncation_partial`
* `Verif.Props.Gibbs.plan_fields`
* `Verif.Props.Gibbs.several_documents_partial`
* `Verif.Props.Gibbs.single_document_fails`
* `Verif.Props.LinkSplit.folds_disjoint`
* `Verif.Props.Popular.hashtag_empty_word`
* `Verif.Props.Pretrained.load_iff`
* `Verif.Props.Pretrained.prune_rows`
* `Verif.Props.Prune.reorder_fails_half_way`
* `Verif.Props.Prune.reorder_total_partial`
* `Verif.Props.Reports.template_filled`
* `Verif.Props.Reports.template_unknown`
* `Verif.Props.RunCli.dtypes_one_partial`
* `Verif.Props.RunCli.dtypes_two_partial`
* `Verif.Props.RunCli.dtypes_violation`
* `Verif.Props.RunCli.file_partial`
* `Verif.Props.RunCli.mask_read`
* `Verif.Props.RunCli.mask_refused`
* `Verif.Props.RunOptions.bindArgs_spec`
* `Verif.Props.Segments.cvb_stop_reason`
* `Verif.Props.Segments.cvb_too_many`
* `Verif.Props.Segments.svb_f32_fails`
* `Verif.Props.Segments.vb_large_lf`
* `Verif.Props.Segments.vb_no_precision`
* `Verif.Props.SelectUsers.strip_spec`
* `Verif.Props.SelectUsers.user_name_spec`
* `Verif.Props.SingleDoc.lengths_partial`
* `Verif.Props.SkOther.dictionary_complete_partial`
* `Verif.Props.SkOther.dictionary_short_violation`
* `Verif.Props.SkOther.dictionary_tokens`
* `Verif.Props.SkOther.get_params_violation`
* `Verif.Props.SkOther.hdp_prior_violation`
* `Verif.Props.SkOther.same_of_used`
* `Verif.Props.SkWrapped.fit_forgets`
* `Verif.Props.SkWrapped.fit_starts`
* `Verif.Props.SkWrapped.flag_down`
* `Verif.Props.Sklearn.failed_resume_leaves_model`
* `Verif.Props.Sklearn.fit_transform_plain_fails`
* `Verif.Props.Sklearn.iterations_honoured_partial`
* `Verif.Props.Sklearn.new_wrapper_settings`
* `Verif.Props.Sklearn.others_fit_partial`
* `Verif.Props.Sklearn.resume_rejected_partial`
* `Verif.Props.Sklearn.resume_requires`
* `Verif.Props.Sklearn.score_bound_of_nothing`
* `Verif.Props.Sklearn.score_keeps_partial`
* `Verif.Props.Sklearn.svb_never_fits`
* `Verif.Props.SparseKernels.csr_indices_spec`
* `Verif.Props.SparseKernels.csr_indices_triples`
* `Verif.Props.SparseOut.int_product_floating`
* `Verif.Props.TextTools.round_trip_iff_partial`
* `Verif.Props.VecTrans.vec_transpose_other_dtypes`

## Axioms: `Classical.choice`, `Quot.sound`, `propext`

* `Verif.Props.Absent.bohning_fast_empty_violation`
* `Verif.Props.Absent.bohning_query_empty_partial`
* `Verif.Props.Absent.bohning_unseen_partial`
* `Verif.Props.Absent.ctm_unseen_partial`
* `Verif.Props.Absent.cvb0_unseen_violation`
* `Verif.Props.Absent.cvb2_unseen_violation`
* `Verif.Props.Absent.em_query_empty_partial`
* `Verif.Props.Absent.em_unseen_partial`
* `Verif.Props.Absent.empty_refused_partial`
* `Verif.Props.Absent.gibbs_empty_partial`
* `Verif.Props.Absent.gibbs_query_empty_partial`
* `Verif.Props.Absent.gibbs_unseen_partial`
* `Verif.Props.Absent.lda_empty_exact`
* `Verif.Props.Absent.lda_empty_iff`
* `Verif.Props.Absent.lda_empty_violation`
* `Verif.Props.Absent.lda_unseen_partial`
* `Verif.Props.Absent.mtm3_unseen_partial`
* `Verif.Props.Absent.vb_unseen_partial`
* `Verif.Props.Absent.yv_unseen_partial`
* `Verif.Props.ArxivFiles.acl_author_spec_partial`
* `Verif.Props.ArxivFiles.acl_author_violation`
* `Verif.Props.ArxivFiles.author_line_read_back`
* `Verif.Props.ArxivFiles.bad_number`
* `Verif.Props.ArxivFiles.count_checked`
* `Verif.Props.ArxivFiles.dense_exact_partial`
* `Verif.Props.ArxivFiles.dense_truncates`
* `Verif.Props.ArxivFiles.field_effect`
* `Verif.Props.ArxivFiles.full_year`
* `Verif.Props.ArxivFiles.next_key_none`
* `Verif.Props.ArxivFiles.next_key_value_spec`
* `Verif.Props.ArxivFiles.no_colon`
* `Verif.Props.ArxivFiles.paper_complete`
* `Verif.Props.ArxivFiles.run_aborts`
* `Verif.Props.ArxivFiles.run_skips_partial`
* `Verif.Props.ArxivFiles.sparse_exact_partial`
* `Verif.Props.ArxivFiles.sparse_floors`
* `Verif.Props.ArxivFiles.text_matrix_violation`
* `Verif.Props.Bohning.accurate_monotone`
* `Verif.Props.Bohning.bohning_identity_violation`
* `Verif.Props.Bohning.ctm_uncorrelated_violation`
* `Verif.Props.Bohning.ctm_variances_partial`
* `Verif.Props.Bohning.curvature`
* `Verif.Props.Bohning.lse_bohning`
* `Verif.Props.Bohning.query_accurate`
* `Verif.Props.Bohning.query_fast_violation`
* `Verif.Props.Bohning.query_monotone`
* `Verif.Props.Bohning.query_variances_violation`
* `Verif.Props.Bohning.step_monotone`
* `Verif.Props.Bohning.train_monotone`
* `Verif.Props.Bouchard.bound_valid_partial`
* `Verif.Props.Bouchard.coefficient_spec`
* `Verif.Props.Bouchard.jaakkola`
* `Verif.Props.CombineMap.combine_between`
* `Verif.Props.CombineMap.combine_fails_iff`
* `Verif.Props.CombineMap.combine_missing_group`
* `Verif.Props.CombineMap.combine_pooled`
* `Verif.Props.CompletionParts.completion_in_range_partial`
* `Verif.Props.CompletionParts.completion_minimum_spec_partial`
* `Verif.Props.CompletionParts.completion_share`
* `Verif.Props.Copies.copy_equal_partial`
* `Verif.Props.Copies.copy_independent_partial`
* `Verif.Props.Copies.copy_shares`
* `Verif.Props.Copies.cvb_copy_wrong`
* `Verif.Props.Copies.declared_copied`
* `Verif.Props.Copies.missing_field`
* `Verif.Props.Copies.modules_copy_equal`
* `Verif.Props.Copies.modules_independent_partial`
* `Verif.Props.Copies.modules_share`
* `Verif.Props.Copies.wrapper_made`
* `Verif.Props.CrossVal.crossValid_partition`
* `Verif.Props.CrossVal.every_document_held_out`
* `Verif.Props.CrossVal.held_out_exactly_once_iff`
* `Verif.Props.CrossVal.timesHeldOut_exact`
* `Verif.Props.Ctm.counts_conserved`
* `Verif.Props.Ctm.likelihood_spec`
* `Verif.Props.Ctm.topic_counts`
* `Verif.Props.Ctm.vocab_dist`
* `Verif.Props.Ctm.vocab_monotone`
* `Verif.Props.Ctm.vocab_update`
* `Verif.Props.Ctm.words_dist`
* `Verif.Props.CtmBound.bohning_bound_partial`
* `Verif.Props.CtmBound.bohning_bound_violation`
* `Verif.Props.CtmBound.bound_below_partial`
* `Verif.Props.CtmBound.bound_partial`
* `Verif.Props.CtmBound.bound_violation`
* `Verif.Props.CtmBound.evidence_same`
* `Verif.Props.CtmBound.train_bound_partial`
* `Verif.Props.CtmFast.accurate_fails`
* `Verif.Props.CtmFast.agrees_iff`
* `Verif.Props.CtmFast.caller_means_overwritten`
* `Verif.Props.CtmFast.diagonal_same_partial`
* `Verif.Props.CtmFast.square_monotone_partial`
* `Verif.Props.CtmFast.square_same_partial`
* `Verif.Props.CtmQuery.loop_early`
* `Verif.Props.CtmQuery.loop_runs`
* `Verif.Props.CtmQuery.query_proper`
* `Verif.Props.CtmQuery.query_row_partial`
* `Verif.Props.CtmQuery.query_row_steps`
* `Verif.Props.CtmQuery.s_exact`
* `Verif.Props.CtmQuery.step_best_partial`
* `Verif.Props.CtmQuery.step_s`
* `Verif.Props.CtmQuery.step_s_violation`
* `Verif.Props.CtmQuery.step_solves`
* `Verif.Props.CtmStop.row_violation`
* `Verif.Props.CtmTrain.bound_doubled_violation`
* `Verif.Props.CtmTrain.early_last_missing`
* `Verif.Props.CtmTrain.early_lengths_differ`
* `Verif.Props.CtmTrain.empty_document`
* `Verif.Props.CtmTrain.iterate_proper`
* `Verif.Props.CtmTrain.jakkola_sign_violation`
* `Verif.Props.CtmTrain.log_divides_partial`
* `Verif.Props.CtmTrain.log_off_violation`
* `Verif.Props.CtmTrain.log_overflows`
* `Verif.Props.CtmTrain.log_short_violation`
* `Verif.Props.CtmTrain.neg_jakkola_consistent_partial`
* `Verif.Props.CtmTrain.random_row_dist`
* `Verif.Props.CtmTrain.sampling_ends_partial`
* `Verif.Props.CtmTrain.sampling_hangs_violation`
* `Verif.Props.CtmTrain.stop_row_spec`
* `Verif.Props.CtmTrain.train_proper`
* `Verif.Props.Cvb0.cvb0_counts_are_sums`
* `Verif.Props.Cvb0.cvb0_empty_doc`
* `Verif.Props.Cvb0.cvb0_iterate_consistent`
* `Verif.Props.Cvb0.cvb0_query`
* `Verif.Props.Cvb0.cvb0_resume_counts_twice`
* `Verif.Props.Cvb0.cvb0_resume_partial`
* `Verif.Props.Cvb0.cvb0_resume_violated`
* `Verif.Props.Cvb0.cvb0_scoring_restores`
* `Verif.Props.Cvb0.cvb0_totals`
* `Verif.Props.Cvb0.cvb0_train_first`
* `Verif.Props.Cvb0.cvb0_train_refine`
* `Verif.Props.Cvb0.cvb0_update`
* `Verif.Props.Cvb0.newQueryState_consistent`
* `Verif.Props.Cvb2.copy_of_trained_differs`
* `Verif.Props.Cvb2.cvb32_first_iteration`
* `Verif.Props.Cvb2.cvb32_partial`
* `Verif.Props.Cvb2.cvb32_variance_too_large`
* `Verif.Props.Cvb2.cvb64_iterate_vars`
* `Verif.Props.Cvb2.cvb64_query`
* `Verif.Props.Cvb2.cvb64_refine`
* `Verif.Props.Cvb2.cvb64_refine_loses_counts`
* `Verif.Props.Cvb2.cvb64_train_first_partial`
* `Verif.Props.Cvb2.cvb64_variances_are_sums`
* `Verif.Props.CvbBound.bound_exact`
* `Verif.Props.CvbBound.bound_le_evidence`
* `Verif.Props.CvbBound.bound_partial`
* `Verif.Props.CvbBound.bound_violation`
* `Verif.Props.CvbBound.training_bound`
* `Verif.Props.CvbBound.training_bound2`
* `Verif.Props.CvbBound.training_counts`
* `Verif.Props.CvbRange.early_return_succeeds`
* `Verif.Props.CvbRange.incomplete_violation`
* `Verif.Props.CvbRange.iterate_first`
* `Verif.Props.CvbRange.nothing_after_stop`
* `Verif.Props.CvbRange.single_never_stops`
* `Verif.Props.CvbRange.single_violation`
* `Verif.Props.CvbRange.stays_within_partial`
* `Verif.Props.CvbRange.stops_iff`
* `Verif.Props.CvbRange.tolerance_violation`
* `Verif.Props.DataSetOps.dropcols_agree`
* `Verif.Props.DataSetOps.dropcols_survivors`
* `Verif.Props.DataSetOps.intercept_fooled`
* `Verif.Props.DataSetOps.intercept_partial`
* `Verif.Props.DataSetOps.intercept_twice`
* `Verif.Props.DataSetOps.min_freq_aligned`
* `Verif.Props.DataSetOps.split_on_feature_categories`
* `Verif.Props.DataSetOps.split_on_feature_overlap`
* `Verif.Props.DataSetOps.split_on_feature_partial`
* `Verif.Props.DataSetOps.split_on_feature_rows`
* `Verif.Props.DataSetOps.undirected_binary_idempotent`
* `Verif.Props.DataSetOps.undirected_spec`
* `Verif.Props.DataSetSplit.crossValidSplit_aligned`
* `Verif.Props.DataSetSplit.crossValidSplit_pyList`
* `Verif.Props.DataSetSplit.crossValidSplit_single`
* `Verif.Props.DataSetSplit.limit_breaks_cross_validation`
* `Verif.Props.DataSetSplit.limit_effect`
* `Verif.Props.DebugReport.better_before_violation`
* `Verif.Props.DebugReport.first_line`
* `Verif.Props.DebugReport.first_line_violation`
* `Verif.Props.DebugReport.later_falls_partial`
* `Verif.Props.DebugReport.line_iff`
* `Verif.Props.DebugReport.shown_change_partial`
* `Verif.Props.DebugReport.shown_sign_violation`
* `Verif.Props.DebugReport.small_fall_violation`
* `Verif.Props.Dmr.default_query_plan`
* `Verif.Props.Dmr.default_training_plan`
* `Verif.Props.Dmr.featureless_prior_zero`
* `Verif.Props.Dmr.featureless_single_word_fails`
* `Verif.Props.Dmr.first_update_partial`
* `Verif.Props.Dmr.initial_prior`
* `Verif.Props.Dmr.initial_weights_positive`
* `Verif.Props.Dmr.negative_weight_negative_prior`
* `Verif.Props.Dmr.priors_positive_partial`
* `Verif.Props.Dmr.query_inside_buffer_iff`
* `Verif.Props.Dmr.second_update_gets_zeros`
* `Verif.Props.Dmr.training_inside_buffer_iff`
* `Verif.Props.Dmr.updates_get`
* `Verif.Props.DmrCounts.estimate_sum_iff`
* `Verif.Props.DmrCounts.query_counts`
* `Verif.Props.DmrCounts.query_counts_partial`
* `Verif.Props.DmrCounts.query_long_violation`
* `Verif.Props.DmrCounts.train_counts`
* `Verif.Props.DmrEstimates.default_plans_violation`
* `Verif.Props.DmrEstimates.negative_feature_violation`
* `Verif.Props.DmrEstimates.query_preserves_partial`
* `Verif.Props.DmrEstimates.query_rescales`
* `Verif.Props.DmrEstimates.query_topic_estimates`
* `Verif.Props.DmrEstimates.topic_estimates_partial`
* `Verif.Props.DmrEstimates.trained_samples`
* `Verif.Props.DmrEstimates.word_estimates_partial`
* `Verif.Props.DmrPosterior.one_round_estimates_partial`
* `Verif.Props.DmrPosterior.sampled_below_fitted`
* `Verif.Props.DmrWeights.gradient_exact`
* `Verif.Props.DmrWeights.objective_exact`
* `Verif.Props.DmrWeights.total_exact`
* `Verif.Props.DmrWeights.update_exact`
* `Verif.Props.DmrWeights.update_raises_partial`
* `Verif.Props.DmrWeights.update_violation`
* `Verif.Props.DocCompletion.completion_conserves_counts`
* `Verif.Props.DocCompletion.completion_minimum_fails`
* `Verif.Props.DocCompletion.completion_negative_count`
* `Verif.Props.DocCompletion.completion_with_features`
* `Verif.Props.DocCompletion.completion_with_minimum_partial`
* `Verif.Props.DocCompletion.estimated_negative_iff`
* `Verif.Props.DocCompletion.parts_in_range_partial`
* `Verif.Props.Drivers.clip_spec`
* `Verif.Props.Drivers.perplexity_driver`
* `Verif.Props.Drivers.perplexity_truncation_partial`
* `Verif.Props.Evals.map_defined_iff`
* `Verif.Props.Evals.map_missing_link`
* `Verif.Props.Evals.map_missing_link_perfect`
* `Verif.Props.Evals.map_missing_partial`
* `Verif.Props.Evals.map_perfect`
* `Verif.Props.Evals.map_range`
* `Verif.Props.Evals.map_threshold`
* `Verif.Props.Evals.map_threshold_ties`
* `Verif.Props.ExtraPrediction.map_extra`
* `Verif.Props.ExtraPrediction.mrr_extra`
* `Verif.Props.ExtraPrediction.prec_rec_extra`
* `Verif.Props.FoldRuns.default_partial`
* `Verif.Props.FoldRuns.default_violated`
* `Verif.Props.FoldRuns.one_fold`
* `Verif.Props.FoldRuns.truncated_partial`
* `Verif.Props.FoldRuns.truncated_violated`
* `Verif.Props.FoundPrediction.map_found`
* `Verif.Props.FoundPrediction.mrr_found_partial`
* `Verif.Props.FoundPrediction.mrr_found_violation`
* `Verif.Props.FoundPrediction.prec_rec_found`
* `Verif.Props.Gibbs.burn_in_not_sampled`
* `Verif.Props.Gibbs.chosen_topic_has_weight`
* `Verif.Props.Gibbs.chosen_topic_valid_partial`
* `Verif.Props.Gibbs.default_plan`
* `Verif.Props.Gibbs.estimates_are_distributions`
* `Verif.Props.Gibbs.estimates_defined_iff`
* `Verif.Props.Gibbs.flatten_preserves_counts`
* `Verif.Props.Gibbs.initial_tables_consistent`
* `Verif.Props.Gibbs.query_changes_word_dists`
* `Verif.Props.Gibbs.query_preserves_word_dists_partial`
* `Verif.Props.Gibbs.query_rescales_word_dists`
* `Verif.Props.Gibbs.query_sampling_leaves_model`
* `Verif.Props.Gibbs.randLim_range`
* `Verif.Props.Gibbs.sampling_keeps_tables_consistent`
* `Verif.Props.Gibbs.sweep_visits_every_token_once`
* `Verif.Props.Gibbs.training_returns`
* `Verif.Props.Gibbs.training_tables_consistent`
* `Verif.Props.Gibbs.training_takes_samples`
* `Verif.Props.Gibbs.training_totals`
* `Verif.Props.Gibbs.zero_draw_selects_no_topic`
* `Verif.Props.Gibbs.zero_draw_writes_outside`
* `Verif.Props.GibbsHyper.infer_empty_violation`
* `Verif.Props.GibbsHyper.query_prior_partial`
* `Verif.Props.GibbsHyper.query_prior_violation`
* `Verif.Props.GibbsHyper.single_garbage_violation`
* `Verif.Props.GibbsHyper.single_partial`
* `Verif.Props.GibbsPosterior.chance_exact`
* `Verif.Props.GibbsPosterior.choice_iff`
* `Verif.Props.GibbsPosterior.draws_of_topic`
* `Verif.Props.GibbsPosterior.resample_moves`
* `Verif.Props.GibbsPosterior.sampler_converges`
* `Verif.Props.GibbsPosterior.sweeps_keep_posterior`
* `Verif.Props.GibbsPosterior.weights_exact`
* `Verif.Props.GibbsRuns.query_depends_on_start`
* `Verif.Props.GibbsRuns.query_estimates`
* `Verif.Props.GibbsRuns.token_average`
* `Verif.Props.GibbsRuns.training_estimates`
* `Verif.Props.Init.alike_iff_partial`
* `Verif.Props.Init.alike_violation`
* `Verif.Props.Init.dirichlet_topics`
* `Verif.Props.Init.many_ends_partial`
* `Verif.Props.Init.many_exact`
* `Verif.Props.Init.many_hangs_violation`
* `Verif.Props.Init.many_unended`
* `Verif.Props.Init.mtm_empty_violation`
* `Verif.Props.Init.mtm_scale_violation`
* `Verif.Props.Init.mtm_total`
* `Verif.Props.Init.normalised_partial`
* `Verif.Props.Init.one_doc_exact`
* `Verif.Props.Init.one_doc_none`
* `Verif.Props.Init.one_doc_prefers_partial`
* `Verif.Props.Init.topics_counts`
* `Verif.Props.Init.topics_distributions`
* `Verif.Props.Likelihoods.em_point_corpus`
* `Verif.Props.Likelihoods.em_point_partial`
* `Verif.Props.Likelihoods.gibbs_point_exact`
* `Verif.Props.Likelihoods.gibbs_point_partial`
* `Verif.Props.Likelihoods.gibbs_point_violation`
* `Verif.Props.Likelihoods.matrix_exact`
* `Verif.Props.Likelihoods.matrix_partial`
* `Verif.Props.Likelihoods.matrix_reads_outside`
* `Verif.Props.Likelihoods.matrix_wrong`
* `Verif.Props.Likelihoods.self_adds_words`
* `Verif.Props.Likelihoods.self_reads_outside`
* `Verif.Props.Likelihoods.word_likelihood_only`
* `Verif.Props.LinkParts.map_parts`
* `Verif.Props.LinkParts.mrr_part_without`
* `Verif.Props.LinkParts.mrr_parts`
* `Verif.Props.LinkParts.prec_rec_link_parts`
* `Verif.Props.LinkParts.weighted_between`
* `Verif.Props.LinkPred.lda_complete`
* `Verif.Props.LinkPred.lda_exceeds_one`
* `Verif.Props.LinkPred.lda_not_probability`
* `Verif.Props.LinkPred.lda_self_first`
* `Verif.Props.LinkPred.lro_complete`
* `Verif.Props.LinkPred.rtm_complete`
* `Verif.Props.LinkPred.rtm_probability_partial`
* `Verif.Props.LinkPred.self_dropped_partial`
* `Verif.Props.LinkPred.tfidf_company_partial`
* `Verif.Props.LinkPred.tfidf_complete_partial`
* `Verif.Props.LinkPred.tfidf_depends_on_company`
* `Verif.Props.LinkPred.tfidf_loses_links`
* `Verif.Props.LinkPred.tfidf_probability_partial`
* `Verif.Props.LinkPred.tfidf_self_best`
* `Verif.Props.LinkSplit.directed_dataset_split_partial`
* `Verif.Props.LinkSplit.directed_split_partial`
* `Verif.Props.LinkSplit.folded_dataset_split`
* `Verif.Props.LinkSplit.folded_split_leaks`
* `Verif.Props.LinkSplit.folded_split_no_leak_partial`
* `Verif.Props.LinkSplit.folded_split_rows`
* `Verif.Props.LinkSplit.folded_split_sum`
* `Verif.Props.LinkSplit.folds_hold_out_once`
* `Verif.Props.LinkSplit.link_split_always_fails`
* `Verif.Props.LinkSplit.symmetric_split_doubles_diagonal`
* `Verif.Props.LinkSplit.symmetric_split_partial`
* `Verif.Props.LogUtils.log_one_plus_accurate_nonneg`
* `Verif.Props.LogUtils.log_one_plus_accurate_partial`
* `Verif.Props.LogUtils.log_one_plus_exp_relative`
* `Verif.Props.LogUtils.log_one_plus_relative`
* `Verif.Props.LogUtils.log_one_plus_unbounded`
* `Verif.Props.Lro.default_dtype_error`
* `Verif.Props.Lro.first_step_partial`
* `Verif.Props.Lro.float64_trains_partial`
* `Verif.Props.Lro.last_step`
* `Verif.Props.Lro.no_links_error`
* `Verif.Props.Lro.offset_closed_form`
* `Verif.Props.Lro.offset_not_optimal`
* `Verif.Props.Lro.offset_optimal_partial`
* `Verif.Props.Lro.offset_unlinked`
* `Verif.Props.Lro.offsets_solvable`
* `Verif.Props.Lro.query_needs_links`
* `Verif.Props.Lro.query_scale`
* `Verif.Props.Lro.scale_optimal_partial`
* `Verif.Props.Lro.self_link_not_optimal`
* `Verif.Props.Lro.stop_rule`
* `Verif.Props.MergedWords.ctm_merged`
* `Verif.Props.MergedWords.matrix_merged`
* `Verif.Props.MergedWords.mixture_merged`
* `Verif.Props.MergedWords.perplexity_merged`
* `Verif.Props.MergedWords.word_merged`
* `Verif.Props.MomBound.bound_exceeds_violation`
* `Verif.Props.MomBound.bound_hard`
* `Verif.Props.MomBound.bound_nonneg`
* `Verif.Props.MomBound.log_evidence_nonpos`
* `Verif.Props.MomBound.trained_bound_violation`
* `Verif.Props.MomElbo.elbo_le_evidence`
* `Verif.Props.MomElbo.estep_best`
* `Verif.Props.MomElbo.mstep_best`
* `Verif.Props.MomElbo.query_best`
* `Verif.Props.MomElbo.train_monotone`
* `Verif.Props.MomEm.em_empty_document`
* `Verif.Props.MomEm.em_logged`
* `Verif.Props.MomEm.em_proper`
* `Verif.Props.MomEm.em_query`
* `Verif.Props.MomEm.em_query_independent`
* `Verif.Props.MomEm.em_query_zero`
* `Verif.Props.MomEm.em_trains_partial`
* `Verif.Props.MomEm.em_unlogged`
* `Verif.Props.MomEm.expected_likelihood`
* `Verif.Props.MomEm.expected_single_fails`
* `Verif.Props.MomEm.expected_with_query_fails`
* `Verif.Props.MomEm.expected_without_query_partial`
* `Verif.Props.MomEm.mixture_consistent`
* `Verif.Props.MomGibbs.gibbs_logged`
* `Verif.Props.MomGibbs.hard_memberships`
* `Verif.Props.MomGibbs.long_query_partial`
* `Verif.Props.MomGibbs.preference_inverted`
* `Verif.Props.MomGibbs.short_query_fails`
* `Verif.Props.MomGibbs.short_training_fails`
* `Verif.Props.MomGibbs.single_query_nan`
* `Verif.Props.MomGibbs.training_proper_partial`
* `Verif.Props.MomGibbs.training_returns_last`
* `Verif.Props.MomGibbs.weights_exact`
* `Verif.Props.MomGibbs.weights_nonneg_partial`
* `Verif.Props.MomGibbs.weights_violated`
* `Verif.Props.MomPosterior.chance_exact`
* `Verif.Props.MomPosterior.chance_iff`
* `Verif.Props.MomPosterior.chance_violation`
* `Verif.Props.MomPosterior.query_converges_partial`
* `Verif.Props.MomPosterior.query_violation`
* `Verif.Props.MomPosterior.sampled_exact`
* `Verif.Props.MomPosterior.sampled_iff`
* `Verif.Props.MomPosterior.sampled_violation`
* `Verif.Props.Mtm.copy_independent_partial`
* `Verif.Props.Mtm.copy_shares_covariance`
* `Verif.Props.Mtm.cov_asymmetric`
* `Verif.Props.Mtm.cov_formula`
* `Verif.Props.Mtm.cov_symmetric_partial`
* `Verif.Props.Mtm.first_shares`
* `Verif.Props.Mtm.first_shares_violation`
* `Verif.Props.Mtm.link_dists_columns_partial`
* `Verif.Props.Mtm.link_dists_violation`
* `Verif.Props.Mtm.link_topics_iff_partial`
* `Verif.Props.Mtm.link_topics_initial`
* `Verif.Props.Mtm.link_topics_stale`
* `Verif.Props.Mtm.out_counts_partial`
* `Verif.Props.Mtm.out_counts_total`
* `Verif.Props.Mtm.out_counts_violation`
* `Verif.Props.Mtm.query_alters`
* `Verif.Props.Mtm.query_overwrites`
* `Verif.Props.Mtm.query_unchanged_partial`
* `Verif.Props.Mtm.running_sums`
* `Verif.Props.Mtm.running_sums_train`
* `Verif.Props.Mtm.shares_partial`
* `Verif.Props.Mtm.shares_sum_partial`
* `Verif.Props.Mtm.train_count`
* `Verif.Props.Mtm.train_word_counts`
* `Verif.Props.Mtm.word_counts`
* `Verif.Props.MtmBound.bound1_initial`
* `Verif.Props.MtmBound.bound1_violation`
* `Verif.Props.MtmBound.bound2_ignores_links`
* `Verif.Props.MtmBound.bound2_partial`
* `Verif.Props.MtmBound.bound2_violation`
* `Verif.Props.MtmBound.bound3_eq`
* `Verif.Props.MtmBound.bound3_partial`
* `Verif.Props.MtmBound.bound3_violation`
* `Verif.Props.MtmLinks.gain_step`
* `Verif.Props.MtmLinks.in_links_formula`
* `Verif.Props.MtmLinks.in_links_violation`
* `Verif.Props.MtmLinks.linkAll_eq`
* `Verif.Props.MtmLinks.linkPair_eq`
* `Verif.Props.MtmLinks.link_counts_partial`
* `Verif.Props.MtmLinks.links_complete`
* `Verif.Props.MtmLinks.links_unlinked`
* `Verif.Props.MtmLinks.lse_linkA`
* `Verif.Props.MtmLinks.scores_dist`
* `Verif.Props.MtmQuery.query_links_partial`
* `Verif.Props.MtmQuery.query_links_violation`
* `Verif.Props.MtmQuery.query_sum`
* `Verif.Props.MtmTrain.in_means_fixed_iff_partial`
* `Verif.Props.MtmTrain.in_means_violation`
* `Verif.Props.MtmTrain.in_stationary_max`
* `Verif.Props.MtmTrain.means2_fixed_iff_partial`
* `Verif.Props.MtmTrain.out_step3`
* `Verif.Props.MtmTrain.out_train3`
* `Verif.Props.MtmTrain.query2_fast`
* `Verif.Props.MtmTrain.query2_posterior_partial`
* `Verif.Props.MtmTrain.query2_varcs`
* `Verif.Props.MtmTrain.query3_model_partial`
* `Verif.Props.MtmTrain.query_step3`
* `Verif.Props.MtmTrain.rounds_good`
* `Verif.Props.MtmTrain.step2_ok_iff`
* `Verif.Props.MtmTrain.systems2`
* `Verif.Props.MtmTrain.systems3`
* `Verif.Props.MtmTrain.train2_completes_partial`
* `Verif.Props.MtmTrain.train2_fails`
* `Verif.Props.MtmTrain.train3_good`
* `Verif.Props.MtmTrain.train3_ignores`
* `Verif.Props.MtmTrain.train3_resume_partial`
* `Verif.Props.MtmTrain.vocab2_monotone`
* `Verif.Props.MtmTrain.vocab3_monotone`
* `Verif.Props.NoLinks.bound_without_links`
* `Verif.Props.NoLinks.topics_without_links`
* `Verif.Props.NoLinks.train_without_links`
* `Verif.Props.Numerics.colwise_distribution`
* `Verif.Props.Numerics.colwise_is_softmax`
* `Verif.Props.Numerics.colwise_shift`
* `Verif.Props.Numerics.converged_flat_partial`
* `Verif.Props.Numerics.converged_iff`
* `Verif.Props.Numerics.decreasing_bound_converges`
* `Verif.Props.Numerics.log1pexp_f4`
* `Verif.Props.Numerics.log1pexp_f8`
* `Verif.Props.Numerics.log1pexp_monotone_partial`
* `Verif.Props.Numerics.log1pexp_not_monotone`
* `Verif.Props.Numerics.log1pexp_np`
* `Verif.Props.Numerics.lse_spec`
* `Verif.Props.Numerics.mixture_score_gap`
* `Verif.Props.Numerics.mixture_score_gap_rows`
* `Verif.Props.Numerics.no_early_convergence`
* `Verif.Props.Numerics.rowwise_distribution`
* `Verif.Props.Numerics.rowwise_is_softmax`
* `Verif.Props.Numerics.rowwise_shift`
* `Verif.Props.Numerics.safe_det_spec`
* `Verif.Props.Numerics.safe_log_clips`
* `Verif.Props.Numerics.safe_log_spec`
* `Verif.Props.Numerics.safe_x_log_x_spec`
* `Verif.Props.Numerics.scale_ignored`
* `Verif.Props.Numerics.scaled_right_iff_partial`
* `Verif.Props.Numerics.scaled_sum_error`
* `Verif.Props.Numerics.scaled_violation`
* `Verif.Props.Numerics.single_component_partial`
* `Verif.Props.Numerics.single_row_fails`
* `Verif.Props.OwnWords.ctm_own`
* `Verif.Props.OwnWords.mixture_own`
* `Verif.Props.OwnWords.own_attained`
* `Verif.Props.OwnWords.perplexity_own`
* `Verif.Props.OwnWords.word_own`
* `Verif.Props.Parts.ctm_parts`
* `Verif.Props.Parts.expected_parts_partial`
* `Verif.Props.Parts.expected_single_violation`
* `Verif.Props.Parts.mixture_parts`
* `Verif.Props.Parts.perplexity_between`
* `Verif.Props.Parts.word_parts`
* `Verif.Props.PerfectPrediction.map_best`
* `Verif.Props.PerfectPrediction.mrr_best_partial`
* `Verif.Props.PerfectPrediction.mrr_perfect_exact`
* `Verif.Props.PerfectPrediction.mrr_perfect_violation`
* `Verif.Props.PerfectPrediction.prec_rec_best`
* `Verif.Props.Perplexity.perplexity_anti`
* `Verif.Props.Perplexity.perplexity_ge_one`
* `Verif.Props.Perplexity.perplexity_log`
* `Verif.Props.Perplexity.perplexity_pooled`
* `Verif.Props.Popular.hashtag_indices_spec`
* `Verif.Props.Popular.popular_spec`
* `Verif.Props.Pretrained.outsample_violation`
* `Verif.Props.Pretrained.start_mean`
* `Verif.Props.Pretrained.start_topics`
* `Verif.Props.Pretrained.used_partial`
* `Verif.Props.PrintedTable.cutoffs_same`
* `Verif.Props.PrintedTable.no_folds`
* `Verif.Props.PrintedTable.run_partial`
* `Verif.Props.PrintedTable.run_read`
* `Verif.Props.PrintedTable.run_violation`
* `Verif.Props.PrintedTable.table_read_partial`
* `Verif.Props.PrintedTable.table_violation`
* `Verif.Props.PrintedTable.values_read`
* `Verif.Props.Priors.topic_default`
* `Verif.Props.Priors.topic_mean_same`
* `Verif.Props.Priors.topic_mean_violation`
* `Verif.Props.Priors.topic_partial`
* `Verif.Props.Priors.topic_scalar_violation`
* `Verif.Props.Priors.vocab_default`
* `Verif.Props.Priors.vocab_one`
* `Verif.Props.Priors.vocab_partial`
* `Verif.Props.Priors.vocab_violation`
* `Verif.Props.Prune.prune_coherent_no_links`
* `Verif.Props.Prune.prune_fails_half_way`
* `Verif.Props.Prune.prune_links_largest`
* `Verif.Props.Prune.prune_not_atomic`
* `Verif.Props.Prune.prune_set_shuffle_independent`
* `Verif.Props.Prune.rectangular_links_lose_columns`
* `Verif.Props.Ranking.groups_complete`
* `Verif.Props.Ranking.groups_default_fail`
* `Verif.Props.Ranking.groups_outside_fail`
* `Verif.Props.Ranking.mrr_absent_ignored`
* `Verif.Props.Ranking.mrr_mean`
* `Verif.Props.Ranking.mrr_range`
* `Verif.Props.Ranking.prec_rec_closed`
* `Verif.Props.Ranking.precision_exact`
* `Verif.Props.Ranking.precision_exceeds_one`
* `Verif.Props.Ranking.precision_partial`
* `Verif.Props.Ranking.recall_spec`
* `Verif.Props.RankingUp.map_up`
* `Verif.Props.RankingUp.mrr_up`
* `Verif.Props.RankingUp.prec_rec_up`
* `Verif.Props.RecLikely.lro_partial`
* `Verif.Props.RecLikely.sim_lda_partial`
* `Verif.Props.RecLikely.tfidf_violation`
* `Verif.Props.RecLikely.unknown_method`
* `Verif.Props.Renumber.em_query`
* `Verif.Props.Renumber.em_train`
* `Verif.Props.Renumber.vb_batch_train`
* `Verif.Props.Renumber.vb_train`
* `Verif.Props.RenumberCtm.bohning_train`
* `Verif.Props.RenumberCtm.ctm_topics_partial`
* `Verif.Props.RenumberCtm.ctm_train`
* `Verif.Props.RenumberCtm.first_topic`
* `Verif.Props.RenumberCtm.lda_query`
* `Verif.Props.RenumberCtm.lda_train`
* `Verif.Props.RenumberCtm.topics_not_alike`
* `Verif.Props.RenumberCvb.cvb0_topics`
* `Verif.Props.RenumberCvb.cvb_start_topics`
* `Verif.Props.RenumberCvb.cvb_topics`
* `Verif.Props.RenumberLinks.all_links_predicted`
* `Verif.Props.RenumberLinks.links_predicted`
* `Verif.Props.RenumberLinks.mtm2_query`
* `Verif.Props.RenumberLinks.mtm2_train`
* `Verif.Props.RenumberLinks.mtm3_query`
* `Verif.Props.RenumberLinks.mtm3_train`
* `Verif.Props.RenumberLinks.mtm_train`
* `Verif.Props.RenumberLinks.rtm_train`
* `Verif.Props.RenumberScores.map_same_partial`
* `Verif.Props.RenumberScores.mrr_same_partial`
* `Verif.Props.RenumberScores.prec_rec_same_partial`
* `Verif.Props.RenumberScores.scores_depend_on_numbers`
* `Verif.Props.RenumberStm.bohning_query`
* `Verif.Props.RenumberStm.exact_follows`
* `Verif.Props.RenumberStm.uv_train`
* `Verif.Props.RenumberStm.yv_bohning_train`
* `Verif.Props.RenumberStm.yv_query`
* `Verif.Props.RenumberStm.yv_train`
* `Verif.Props.RenumberTokens.cvb0_words`
* `Verif.Props.RenumberTokens.cvb_start_words`
* `Verif.Props.RenumberTokens.cvb_words`
* `Verif.Props.RenumberTokens.dmr_query_words`
* `Verif.Props.RenumberTokens.dmr_words`
* `Verif.Props.RenumberTokens.gibbs_query_words`
* `Verif.Props.RenumberTokens.gibbs_words`
* `Verif.Props.Reports.ctm_violation`
* `Verif.Props.Reports.error_violation`
* `Verif.Props.Reports.latents_missing`
* `Verif.Props.Reports.names_only`
* `Verif.Props.Reports.names_partial`
* `Verif.Props.Reports.names_violation`
* `Verif.Props.Reports.pattern_spec`
* `Verif.Props.Reports.report_names`
* `Verif.Props.Reports.reports_ctm_partial`
* `Verif.Props.Reports.reports_stm_partial`
* `Verif.Props.Reports.stm_partial`
* `Verif.Props.Reports.values_spec`
* `Verif.Props.ResultTable.table_exact`
* `Verif.Props.ResultTable.table_partial`
* `Verif.Props.ResultTable.table_violation`
* `Verif.Props.Rtm.documented_priors_rejected`
* `Verif.Props.Rtm.links_missed_unsorted`
* `Verif.Props.Rtm.links_once`
* `Verif.Props.Rtm.predictions_agree_partial`
* `Verif.Props.Rtm.predictions_asymmetric`
* `Verif.Props.Rtm.query_fails`
* `Verif.Props.Rtm.query_nothing_partial`
* `Verif.Props.Rtm.query_state_partial`
* `Verif.Props.Rtm.query_state_rejected`
* `Verif.Props.Rtm.rtm_mass`
* `Verif.Props.RtmBound.bound_partial`
* `Verif.Props.RtmBound.bound_violation`
* `Verif.Props.RtmBound.bound_without`
* `Verif.Props.RtmLearn.negatives_lower`
* `Verif.Props.RtmLearn.negatives_typical`
* `Verif.Props.RtmLearn.negatives_typical_partial`
* `Verif.Props.RtmLearn.negatives_typical_violation`
* `Verif.Props.RtmLearn.prior_positive`
* `Verif.Props.RtmLearn.prior_shrinks`
* `Verif.Props.RtmLearn.prior_update_shrinks`
* `Verif.Props.RtmLearn.prior_violation`
* `Verif.Props.RtmLearn.regulariser_alone`
* `Verif.Props.RtmLearn.regulariser_violation`
* `Verif.Props.RtmLearn.scores_gradient`
* `Verif.Props.RtmLearn.weights_direction`
* `Verif.Props.RtmLearn.weights_partial`
* `Verif.Props.RtmLearn.weights_violation`
* `Verif.Props.RunCli.file_violation`
* `Verif.Props.RunCli.hashtag_partial`
* `Verif.Props.RunCli.hashtag_violation`
* `Verif.Props.RunCli.outsample_grows`
* `Verif.Props.RunCli.outsample_rounds`
* `Verif.Props.RunCli.scores_partial`
* `Verif.Props.RunCli.scores_violation`
* `Verif.Props.RunCli.tag_prop_violation`
* `Verif.Props.RunFiles.read_adjacent`
* `Verif.Props.RunFiles.read_all_partial`
* `Verif.Props.RunFiles.read_entry`
* `Verif.Props.RunFiles.read_last`
* `Verif.Props.RunFiles.read_lost`
* `Verif.Props.RunFiles.section_missing`
* `Verif.Props.RunFiles.skip_spec`
* `Verif.Props.RunFiles.title_round_trip_partial`
* `Verif.Props.RunFiles.title_violation`
* `Verif.Props.RunOptions.plan_violation`
* `Verif.Props.RunOptions.vocab_prior_used`
* `Verif.Props.ScaledCounts.ctm_scaled`
* `Verif.Props.ScaledCounts.linked_scaled`
* `Verif.Props.ScaledCounts.mixture_not_scaled`
* `Verif.Props.ScaledCounts.perplexity_scaled`
* `Verif.Props.ScaledCounts.word_scaled`
* `Verif.Props.ScoreOrder.increasing_scores`
* `Verif.Props.ScoreOrder.only_order_matters`
* `Verif.Props.Seeding.fresh_reproducible`
* `Verif.Props.Seeding.gibbs_seed_violation`
* `Verif.Props.Seeding.reseed_partial`
* `Verif.Props.Seeding.same_seed_violation`
* `Verif.Props.Seeding.seed_range`
* `Verif.Props.Seeding.seed_used_partial`
* `Verif.Props.Segments.cvb_at_most`
* `Verif.Props.Segments.cvb_exact`
* `Verif.Props.Segments.svb_f64_fails`
* `Verif.Props.Segments.vb_early`
* `Verif.Props.Segments.vb_exact`
* `Verif.Props.Segments.vb_precision_partial`
* `Verif.Props.SelectUsers.contribs_bounds`
* `Verif.Props.SelectUsers.contribs_returns_iff`
* `Verif.Props.SelectUsers.read_counts_spec`
* `Verif.Props.SelectUsers.users_cover_minimally`
* `Verif.Props.SelectUsers.users_fail_iff`
* `Verif.Props.SelfLda.documented_priors_rejected`
* `Verif.Props.SelfLda.no_query_state`
* `Verif.Props.SelfLda.priors_accepted`
* `Verif.Props.SelfLda.query_fails`
* `Verif.Props.SelfLda.topicDists_dist`
* `Verif.Props.SelfLda.train_erases`
* `Verif.Props.SelfLda.train_fails`
* `Verif.Props.SelfLda.train_zero_partial`
* `Verif.Props.SkOther.dictionary_counts`
* `Verif.Props.SkOther.dictionary_names_violation`
* `Verif.Props.SkParams.clone_iff`
* `Verif.Props.SkParams.clone_same`
* `Verif.Props.SkParams.construct_eq`
* `Verif.Props.SkParams.given_partial`
* `Verif.Props.SkParams.set_iterations_iff`
* `Verif.Props.SkParams.set_iterations_violation`
* `Verif.Props.SkParams.set_kind_violation`
* `Verif.Props.SkParams.set_partial`
* `Verif.Props.SkParams.zero_violation`
* `Verif.Props.SkWrapped.score_hdp`
* `Verif.Props.SkWrapped.score_integers`
* `Verif.Props.SkWrapped.score_lda`
* `Verif.Props.SkWrapped.score_lda_inferred`
* `Verif.Props.SkWrapped.score_refused`
* `Verif.Props.SkWrapped.score_scale`
* `Verif.Props.Sklearn.method_names`
* `Verif.Props.Sklearn.metrics_partial`
* `Verif.Props.Sklearn.metrics_short`
* `Verif.Props.SoftSplit.soft_split_all`
* `Verif.Props.SoftSplit.soft_split_disjoint`
* `Verif.Props.SoftSplit.soft_split_duplicates`
* `Verif.Props.SoftSplit.soft_split_none`
* `Verif.Props.SoftSplit.soft_split_spec`
* `Verif.Props.SparseKernels.kernel_shape`
* `Verif.Props.SparseKernels.product_of_dot_spec`
* `Verif.Props.SparseKernels.product_of_safe_ln_dot_range_partial`
* `Verif.Props.SparseKernels.product_of_safe_ln_dot_spec`
* `Verif.Props.SparseKernels.quotient_of_dot_range_partial`
* `Verif.Props.SparseKernels.quotient_of_dot_range_reads`
* `Verif.Props.SparseKernels.quotient_of_dot_range_wrong`
* `Verif.Props.SparseKernels.quotient_of_dot_spec`
* `Verif.Props.SparseKernels.quotient_of_normed_dot_spec`
* `Verif.Props.SparseOut.entropy_of_dot_chain_partial`
* `Verif.Props.SparseOut.entropy_of_dot_eq`
* `Verif.Props.SparseOut.entropy_of_dot_nan`
* `Verif.Props.SparseOut.entropy_of_dot_nonneg`
* `Verif.Props.SparseOut.entropy_py_index`
* `Verif.Props.SparseOut.entropy_py_wrong`
* `Verif.Props.SparseOut.int_product_spec_partial`
* `Verif.Props.SparseOut.quotient_into_spec`
* `Verif.Props.SparseOut.safe_ln_into_double`
* `Verif.Props.SparseOut.safe_ln_into_single_partial`
* `Verif.Props.SparseOut.safe_ln_out_not_written`
* `Verif.Props.Stages.bohning_stages`
* `Verif.Props.Stages.ctm_stages`
* `Verif.Props.Stages.em_stages`
* `Verif.Props.Stages.lda_stages_partial`
* `Verif.Props.Stages.online_stages`
* `Verif.Props.Stages.online_stages_violated`
* `Verif.Props.Stages.vb_batch_stages_partial`
* `Verif.Props.StagesLinks.mtm2_stages`
* `Verif.Props.StagesLinks.mtm3_stages`
* `Verif.Props.StagesLinks.mtm3_stages_partial`
* `Verif.Props.StagesLinks.mtm3_stages_violated`
* `Verif.Props.StagesLinks.mtm_stages_partial`
* `Verif.Props.StagesLinks.mtm_stages_violated`
* `Verif.Props.StagesLinks.rtm_stages_partial`
* `Verif.Props.StagesLinks.rtm_stages_violated`
* `Verif.Props.StagesStm.uv_stages`
* `Verif.Props.StagesStm.yv_stages`
* `Verif.Props.Stm.inverse_unique`
* `Verif.Props.Stm.length_groups`
* `Verif.Props.Stm.length_groups_pure`
* `Verif.Props.Stm.query_iterations`
* `Verif.Props.Stm.query_iterations_partial`
* `Verif.Props.Stm.query_iterations_violation`
* `Verif.Props.Stm.query_monotone`
* `Verif.Props.Stm.query_step_means`
* `Verif.Props.Stm.query_step_monotone`
* `Verif.Props.Stm.query_variances`
* `Verif.Props.Stm.rescaled`
* `Verif.Props.Stm.trained_covariance_partial`
* `Verif.Props.Stm.uv_exponentials`
* `Verif.Props.Stm.uv_exponentials_partial`
* `Verif.Props.Stm.uv_exponentials_violation`
* `Verif.Props.Stm.uv_shares`
* `Verif.Props.Stm.uv_step_sorted`
* `Verif.Props.Stm.uv_train_spec`
* `Verif.Props.Stm.yvLoop_spec`
* `Verif.Props.Stm.yv_exponentials`
* `Verif.Props.Stm.yv_first_vocab`
* `Verif.Props.Stm.yv_log_off`
* `Verif.Props.Stm.yv_log_spec`
* `Verif.Props.Stm.yv_order_violation`
* `Verif.Props.Stm.yv_shares_partial`
* `Verif.Props.Stm.yv_shares_violation`
* `Verif.Props.Stm.yv_train_partial`
* `Verif.Props.Stm.yv_train_same_rows`
* `Verif.Props.Stm.zero_iterations_violation`
* `Verif.Props.StmBound.bohning_docs_partial`
* `Verif.Props.StmBound.bouchard_below_partial`
* `Verif.Props.StmBound.bouchard_docs_partial`
* `Verif.Props.StmBound.bound_violation`
* `Verif.Props.StmBound.online_violation`
* `Verif.Props.StmCov.covariance_optimal`
* `Verif.Props.StmCov.query_variance_partial`
* `Verif.Props.StmCov.query_variance_violation`
* `Verif.Props.StmCov.uv_covariance`
* `Verif.Props.StmCov.uv_latent_partial`
* `Verif.Props.StmCov.uv_step_good`
* `Verif.Props.StmCov.uv_step_is_query`
* `Verif.Props.StmCov.uv_step_posterior`
* `Verif.Props.StmCov.uv_train_improves`
* `Verif.Props.StmCov.uv_variance_violation`
* `Verif.Props.StmCov.yv_latent_violation`
* `Verif.Props.StmModel.logged_bound`
* `Verif.Props.StmModel.logged_bound_partial`
* `Verif.Props.StmModel.logged_bound_violation`
* `Verif.Props.StmModel.measure_partial`
* `Verif.Props.StmModel.measure_violation`
* `Verif.Props.StmModel.newA_optimal`
* `Verif.Props.StmModel.newV_optimal`
* `Verif.Props.StmModel.newY_optimal`
* `Verif.Props.StmModel.online_partial`
* `Verif.Props.StmModel.online_violation`
* `Verif.Props.StmModel.restored_spec`
* `Verif.Props.StmModel.ridge_optimal`
* `Verif.Props.StmVecY.estimate_fixed`
* `Verif.Props.StmVecY.gradient_deriv`
* `Verif.Props.StmVecY.newton_exact`
* `Verif.Props.StmVecY.newton_fixed_best`
* `Verif.Props.StmVecY.newton_fixed_iff`
* `Verif.Props.StmVecY.train_fails`
* `Verif.Props.StmVecY.train_typeError`
* `Verif.Props.StmYv.new_query`
* `Verif.Props.StmYv.query_best_partial`
* `Verif.Props.StmYv.query_coefficients_violation`
* `Verif.Props.StmYv.query_proper`
* `Verif.Props.StmYv.step_proper`
* `Verif.Props.StmYv.train_best_partial`
* `Verif.Props.StmYv.train_coefficients_violation`
* `Verif.Props.StmYv.train_first_violation`
* `Verif.Props.StmYv.train_proper`
* `Verif.Props.Stopping.behind_exact`
* `Verif.Props.Stopping.little_change_partial`
* `Verif.Props.Stopping.newest_ignored_violation`
* `Verif.Props.Stopping.not_before`
* `Verif.Props.Stopping.rising_violation`
* `Verif.Props.Stopping.tolerance_mono`
* `Verif.Props.Stopping.tolerance_partial`
* `Verif.Props.Stopping.tolerance_violation`
* `Verif.Props.TagEval.tag_map_blind`
* `Verif.Props.TagEval.tag_map_candidates_partial`
* `Verif.Props.TagEval.tag_map_constant`
* `Verif.Props.TextTools.author_ids_bijection`
* `Verif.Props.TextTools.cases_complete`
* `Verif.Props.TextTools.line_authors_spec`
* `Verif.Props.TextTools.parenthesised_removed`
* `Verif.Props.TextTools.quote_round_trip_violation`
* `Verif.Props.TextTools.roll_up_average`
* `Verif.Props.TextTools.roll_up_between`
* `Verif.Props.TextTools.roll_up_fails_iff`
* `Verif.Props.TextTools.unclosed_dropped`
* `Verif.Props.Twins.bohning_docs`
* `Verif.Props.Twins.bohning_topics`
* `Verif.Props.Twins.bohning_words`
* `Verif.Props.Twins.ctm_docs`
* `Verif.Props.Twins.ctm_topics`
* `Verif.Props.Twins.ctm_words`
* `Verif.Props.Twins.em_docs`
* `Verif.Props.Twins.em_query_docs`
* `Verif.Props.Twins.em_topics`
* `Verif.Props.Twins.em_words`
* `Verif.Props.Twins.lda_docs`
* `Verif.Props.Twins.lda_topics`
* `Verif.Props.Twins.lda_words`
* `Verif.Props.Twins.mtm2_docs`
* `Verif.Props.Twins.mtm2_topics`
* `Verif.Props.Twins.mtm2_words`
* `Verif.Props.Twins.mtm3_docs`
* `Verif.Props.Twins.mtm3_topics`
* `Verif.Props.Twins.mtm3_words`
* `Verif.Props.Twins.mtm_topics`
* `Verif.Props.Twins.mtm_words`
* `Verif.Props.Twins.rtm_topics`
* `Verif.Props.Twins.rtm_words`
* `Verif.Props.Twins.uv_docs`
* `Verif.Props.Twins.uv_topics`
* `Verif.Props.Twins.uv_words`
* `Verif.Props.Twins.vb_docs`
* `Verif.Props.Twins.vb_topics`
* `Verif.Props.Twins.vb_words`
* `Verif.Props.Twins.yv_docs`
* `Verif.Props.Twins.yv_topics`
* `Verif.Props.Twins.yv_words`
* `Verif.Props.UnlinkedDocs.map_order_partial`
* `Verif.Props.UnlinkedDocs.map_unlinked_exact`
* `Verif.Props.UnlinkedDocs.map_unlinked_violation`
* `Verif.Props.UnlinkedDocs.mrr_unlinked`
* `Verif.Props.UnlinkedDocs.prec_rec_unlinked`
* `Verif.Props.UnusedFeature.dmr_query_unused`
* `Verif.Props.UnusedFeature.dmr_unused_partial`
* `Verif.Props.UnusedFeature.lsq_unused_exact`
* `Verif.Props.UnusedFeature.lsq_unused_violation`
* `Verif.Props.UnusedFeature.query_unused`
* `Verif.Props.UnusedFeature.uv_unused_partial`
* `Verif.Props.UnusedFeature.yv_unused_partial`
* `Verif.Props.Vb.bound_equal_lengths_exact_partial`
* `Verif.Props.Vb.bound_equal_lengths_partial`
* `Verif.Props.Vb.bound_reads_garbage`
* `Verif.Props.Vb.iterate1_mass`
* `Verif.Props.Vb.not_stationary`
* `Verif.Props.Vb.query_row`
* `Verif.Props.Vb.query_single_step`
* `Verif.Props.Vb.reading_changes_trained`
* `Verif.Props.Vb.reading_twice_partial`
* `Verif.Props.Vb.rounds_idempotent`
* `Verif.Props.Vb.stationary_partial`
* `Verif.Props.Vb.svb_learns_partial`
* `Verif.Props.Vb.svb_never_learns`
* `Verif.Props.Vb.svb_no_batch`
* `Verif.Props.Vb.three_rounds`
* `Verif.Props.Vb.topics_depend_on_corpus_size`
* `Verif.Props.Vb.topics_of_document_partial`
* `Verif.Props.Vb.train_returns_normalised`
* `Verif.Props.Vb.vb_mass`
* `Verif.Props.Vb.vb_total`
* `Verif.Props.Vb.vb_vocab`
* `Verif.Props.Vb.wordDists_unchanged_iff`
* `Verif.Props.Vb.wordDists_value`
* `Verif.Props.Vb.word_out_of_context`
* `Verif.Props.VbElbo.counts_best`
* `Verif.Props.VbElbo.elbo_le_evidence`
* `Verif.Props.VbElbo.elbo_le_free`
* `Verif.Props.VbElbo.infer_best`
* `Verif.Props.VbElbo.reported_le_evidence`
* `Verif.Props.VbElbo.reported_monotone`
* `Verif.Props.VbElbo.step_exact`
* `Verif.Props.VbElbo.train_monotone`
* `Verif.Props.VbElbo.varBound_eq`
* `Verif.Props.VbElbo.varBound_near`
* `Verif.Props.VbPython.algorithm_overridden`
* `Verif.Props.VbPython.algorithm_recorded_partial`
* `Verif.Props.VbPython.algorithm_without_batches_fails`
* `Verif.Props.VbPython.amari_disturbs`
* `Verif.Props.VbPython.batch_mass`
* `Verif.Props.VbPython.batch_visits_partial`
* `Verif.Props.VbPython.default_first_step`
* `Verif.Props.VbPython.dirichlet_of_means`
* `Verif.Props.VbPython.means_of_dirichlet`
* `Verif.Props.VbPython.measurement_undisturbing`
* `Verif.Props.VbPython.online_mass`
* `Verif.Props.VbPython.online_mass_partial`
* `Verif.Props.VbPython.online_mass_violated`
* `Verif.Props.VbPython.online_negative`
* `Verif.Props.VbPython.online_positive_partial`
* `Verif.Props.VbPython.only_batch_or_kappa`
* `Verif.Props.VbPython.pass_complete`
* `Verif.Props.VbPython.plans_train_partial`
* `Verif.Props.VbPython.query_overwrites_model`
* `Verif.Props.VbPython.query_zero_partial`
* `Verif.Props.VbPython.too_many_visits`
* `Verif.Props.VbPython.visits_cyclic`
* `Verif.Props.VbPython.visits_fair`
* `Verif.Props.VecTrans.sparse_eq_dense`
* `Verif.Props.VecTrans.trans_matrix_maps_vec`
* `Verif.Props.VecTrans.trans_matrix_permutation`
* `Verif.Props.VecTrans.vec_transpose_dtypes_partial`
* `Verif.Props.VecTrans.vec_transpose_involution`
* `Verif.Props.VecTrans.vec_transpose_moves`
* `Verif.Props.WordList.word_list`
* `Verif.Props.WordList.word_list_partial`
* `Verif.Props.WordList.word_list_refused`
* `Verif.Props.WordList.word_list_unsafe`
* `Verif.Props.WordList.word_list_violation`
