{"id": "C01", "title": "Each cross-validation split is an exact partition of the documents", "statement": "Asking a dataset for the train/query split of one fold returns two lists of document positions which together contain every document position exactly once; the query part has ceil(documents / folds) entries. A fold id not below the fold count, or fewer than two folds, is rejected.", "quantifier": "every document count >= 1, every fold count > 1, every fold id below the fold count", "why_tests_cant": "the indices wrap around modulo the document count; only finitely many (documents, folds, fold) triples can be sampled while wrap-around depends on all three", "anchors": ["sidetopics/model/common.py::DataSet.cross_valid_split_indices"]}
{"id": "C02", "title": "Over all folds every document is held out, exactly once when the folds tile the corpus", "statement": "Running every fold of a k-fold cross-validation holds every document out at least once. Every document is held out exactly once if and only if folds * ceil(documents/folds) equals the number of documents; otherwise some document is held out in two different folds.", "quantifier": "every document count >= 1 and every fold count > 1", "why_tests_cant": "whether two folds share a document depends on a divisibility relation between unbounded integers; test corpora are normally chosen so that the folds divide evenly", "anchors": ["sidetopics/model/common.py::DataSet.cross_valid_split_indices", "sidetopics/model/common.py::DataSet.cross_valid_split"]}
{"id": "C03", "title": "Cross-validation keeps words, features, links, categories and order aligned", "statement": "In the two datasets returned by a cross-validation split, row i of the words, of the features, of the links, of the categories and of the recorded order all come from one and the same document of the input dataset, and the two datasets together contain every input row exactly once. No word count is lost: word counts of the two parts add up to that of the input.", "quantifier": "every dataset with any combination of optional components, every fold id and fold count", "why_tests_cant": "alignment has to hold for every row of every dataset shape and for all presence/absence combinations of four optional components", "anchors": ["sidetopics/model/common.py::DataSet.cross_valid_split", "sidetopics/model/common.py::DataSet.cross_valid_split_indices", "sidetopics/model/common.py::DataSet.__init__"]}
{"id": "C04", "title": "Document completion conserves every word count", "statement": "Splitting a dataset without features for document completion gives two datasets with the same shape and vocabulary whose word counts add up, document by document and word by word, to the original counts, whatever random jitter is drawn; with features present both results are the unchanged dataset.", "quantifier": "every word matrix, every stream of random jitter, every estimation proportion", "why_tests_cant": "the jitter is a continuous random stream; a test fixes one seed and sees one stream", "anchors": ["sidetopics/model/common.py::DataSet.doc_completion_split"]}
{"id": "C05", "title": "Document completion yields genuine (non-negative) counts", "statement": "Both parts produced by a document completion split contain only non-negative counts that do not exceed the original count.", "quantifier": "every word matrix and every jitter stream", "why_tests_cant": "violations need a jitter larger in magnitude than the count, which a fixed seed on small data does not produce; the property is false and the safe range of jitters has to be characterised exactly", "anchors": ["sidetopics/model/common.py::DataSet.doc_completion_split"]}
{"id": "C06", "title": "Removing too-short documents during document completion", "statement": "Asking the document completion split for a minimum number of unique words returns the two halves restricted to the documents that meet the minimum in both halves.", "quantifier": "every word matrix, every minimum and every jitter stream", "why_tests_cant": "the failing branch is only taken when some document falls below the minimum for the particular jitter drawn", "anchors": ["sidetopics/model/common.py::DataSet.doc_completion_split"]}
{"id": "C07", "title": "A directed link split is a partition of the links", "statement": "Splitting a dataset's links for link prediction without symmetry produces a training and a query link matrix of the original shape such that every stored link goes entirely to exactly one of them, so that their sum is the original matrix and no position is non-zero in both.", "quantifier": "every link matrix (no position stored twice) and every shuffle the random generator could produce", "why_tests_cant": "there are nnz! shuffles; a test sees one", "anchors": ["sidetopics/model/common.py::DataSet.link_prediction_split", "sidetopics/model/common.py::_split"]}
{"id": "C08", "title": "A symmetric link split yields two symmetric matrices that add up to the original", "statement": "Splitting a symmetric link matrix for link prediction produces two symmetric matrices with disjoint support whose sum is the original matrix.", "quantifier": "every symmetric link matrix and every shuffle", "why_tests_cant": "the sum has to be right at every position including the diagonal, for every shuffle; the property fails exactly on self-links, which sample data lacks", "anchors": ["sidetopics/model/common.py::DataSet.link_prediction_split", "sidetopics/model/common.py::_split_symm", "sidetopics/model/common.py::_symm_csr"]}
{"id": "C09", "title": "A folded link split removes exactly one slice of links per long row", "statement": "The folded link split returns well-formed matrices; for every document having at least the minimum number of links the links are partitioned between training and query matrices, in order, with exactly floor(links/folds) of them in the query part; and the returned document subset lists exactly those documents, in increasing order.", "quantifier": "every CSR link matrix, fold count >= 1, fold id below the fold count, every minimum", "why_tests_cant": "correctness depends on offsets accumulated over all earlier rows, so an error can surface only on particular sequences of row lengths", "anchors": ["sidetopics/model/common.py::DataSet.folded_link_prediction_split", "sidetopics/model/common.py::_folded_split"]}
{"id": "C10", "title": "A folded link split never leaks a link into both halves", "statement": "In the two datasets returned by the folded link split, the link matrices add up to the original matrix and no link is present in both.", "quantifier": "every link matrix, fold id, fold count and minimum", "why_tests_cant": "false for every document below the minimum link count; the exact set of violating inputs has to be characterised for all matrices", "anchors": ["sidetopics/model/common.py::DataSet.folded_link_prediction_split", "sidetopics/model/common.py::_folded_split"]}
{"id": "C11", "title": "Running all folds of the folded link split holds out each link at most once", "statement": "For a document with at least the minimum number of links, the query slices of different folds are disjoint; over all folds exactly links - (links mod folds) of its links are ever held out, so every link is evaluated if and only if the fold count divides the number of links.", "quantifier": "every link matrix, every fold count >= 1", "why_tests_cant": "needs all folds of all fold counts against all row lengths", "anchors": ["sidetopics/model/common.py::DataSet.folded_link_prediction_split", "sidetopics/model/common.py::_folded_split"]}
{"id": "C12", "title": "Pruning and shuffling moves all components coherently", "statement": "After pruning and shuffling a dataset, the returned order lists, without repetition, exactly the documents with enough unique words (when no link minimum applies); row i of words, features, links and categories is row order[i] of the input, and square link matrices have their columns moved by the same order.", "quantifier": "every dataset, every threshold and every permutation the shuffle could produce", "why_tests_cant": "there are n! shuffles and the subset kept depends on the data", "anchors": ["sidetopics/model/common.py::DataSet.prune_and_shuffle", "sidetopics/model/common.py::DataSet._reorder", "sidetopics/model/common.py::_reorder_link_matrix"]}
{"id": "C13", "title": "Pruning by link count ends in the largest self-sufficient set of documents", "statement": "Pruning with a minimum link count always terminates, every remaining document has at least that many links to remaining documents, and the remaining set is the largest such set among the documents with enough words, irrespective of the shuffle.", "quantifier": "every dataset with a square, non-negative link matrix, every threshold, every shuffle", "why_tests_cant": "the loop cascades: removing one document can starve another an unbounded number of times", "anchors": ["sidetopics/model/common.py::DataSet.prune_and_shuffle", "sidetopics/model/common.py::_reorder_link_matrix"]}
{"id": "C14", "title": "Re-ordering a dataset either succeeds completely or leaves it unchanged", "statement": "Pruning/shuffling or re-ordering a dataset either completes or, if it raises, leaves the dataset as it was.", "quantifier": "every dataset, including those without categories", "why_tests_cant": "requires looking at the state left behind by every failing path", "anchors": ["sidetopics/model/common.py::DataSet._reorder", "sidetopics/model/common.py::DataSet.prune_and_shuffle", "sidetopics/model/common.py::DataSet.from_files"]}
{"id": "C15", "title": "The document limit restricts the dataset", "statement": "Constructing a dataset with limit = n > 0 considers only the first n documents: the dataset has min(n, documents) documents and its recorded order has one entry per document.", "quantifier": "every dataset and every limit", "why_tests_cant": "must hold for all limits against all sizes; the property is false for every limit strictly between zero and the document count", "anchors": ["sidetopics/model/common.py::DataSet.__init__", "sidetopics/model/common.py::DataSet.from_files"]}
{"id": "C16", "title": "Category files are read back losslessly", "statement": "Reading the flat category list in which the last category of each document carries a trailing newline recovers exactly the per-document category lists that were written, and the dataset constructor accepts it if and only if there is one group per document.", "quantifier": "every list of non-empty category groups whose labels do not end in a newline", "why_tests_cant": "grouping must be right for all numbers of groups and group sizes, including a missing final newline", "anchors": ["sidetopics/model/common.py::DataSet.from_files"]}
{"id": "C17", "title": "Both ways of dropping columns agree", "statement": "Dropping a set of columns by fancy indexing and by editing coordinates gives the same matrix: the surviving columns in their original order, shifted left to close the gaps, with the same values.", "quantifier": "every matrix, every list of valid column ids, in any order and with repetitions", "why_tests_cant": "the coordinate version relies on a count of smaller dropped ids per entry, which must be right for every id list", "anchors": ["sidetopics/model/common.py::dropcols_fancy", "sidetopics/model/common.py::dropcols_coo"]}
{"id": "C18", "title": "Undirected and binary link conversion", "statement": "Converting links to an undirected graph gives a symmetric matrix in which two documents are connected exactly if they were connected in either direction; converting to binary afterwards sets every stored link to one and changes no other position, and repeating both conversions changes nothing further.", "quantifier": "every square link matrix with non-negative entries", "why_tests_cant": "symmetry and support equality are claims about all pairs of documents", "anchors": ["sidetopics/model/common.py::DataSet.convert_to_undirected_graph", "sidetopics/model/common.py::DataSet.convert_to_binary_link_matrix"]}
{"id": "C19", "title": "Splitting on a feature separates train and query documents", "statement": "Splitting on a list of features returns as training documents exactly those having none of the features set and as query documents exactly those having the first feature set; no document is in both and training links only refer to training documents.", "quantifier": "every feature matrix and every non-empty feature list", "why_tests_cant": "holds for non-negative features but is false when feature values cancel, a measure-zero event in sampled data", "anchors": ["sidetopics/model/common.py::DataSet.split_on_feature"]}
{"id": "C20", "title": "Adding an intercept guarantees a constant feature", "statement": "After asking for an intercept to be added, some feature column equals one for every document; the call reports whether it changed the features and a second call changes nothing.", "quantifier": "every feature matrix", "why_tests_cant": "the decision is taken on column means, which coincide with the claim only for features bounded by one", "anchors": ["sidetopics/model/common.py::DataSet.add_intercept_to_feats_if_required"]}
{"id": "C21", "title": "Vocabulary pruning keeps words and dictionary aligned", "statement": "Keeping only words that occur in at least a minimum number of documents retains exactly those words, in order, with unchanged counts, and entry i of the new dictionary still names column i of the new word matrix.", "quantifier": "every word matrix, dictionary and minimum", "why_tests_cant": "alignment between two independently indexed structures for every subset of columns", "anchors": ["sidetopics/model/common.py::DataSet.words_with_min_freq"]}
{"id": "C22", "title": "Mean average precision is a proper score", "statement": "Mean average precision lies between 0 and 1 whenever it is defined; it is 1 when every document has links and every document's expected links are ranked ahead of all others; it is undefined (division by zero) exactly when there are no documents or some document with expected links received an empty ranking.", "quantifier": "every set of expected links and every ranking", "why_tests_cant": "range and extremal claims over all rankings", "anchors": ["sidetopics/model/evals.py::mean_average_prec"]}
{"id": "C23", "title": "Discarding links below the per-document minimum does not change mean average precision", "statement": "Evaluating mean average precision on the sparse predictions that keep only links scoring at least as high as the document's worst expected link gives the same value as evaluating it on the scores of all links, when scores are pairwise distinct.", "quantifier": "every score vector with distinct scores, every set of expected links", "why_tests_cant": "an optimisation-correctness claim over all score assignments", "anchors": ["sidetopics/model/evals.py::mean_average_prec", "sidetopics/model/sim_based_rec.py::min_link_probs", "sidetopics/model/sim_based_rec.py::link_probs"]}
{"id": "C24", "title": "Mean reciprocal rank is the mean of the reciprocal ranks found", "statement": "Mean reciprocal rank equals the average, over all expected links that occur in the ranking, of one over their position; it lies in (0,1]; expected links absent from the ranking are ignored rather than penalised; it is undefined (division by zero) exactly when no expected link occurs in any ranking.", "quantifier": "every set of expected links and every ranking (no repeated ids)", "why_tests_cant": "the implementation deletes from a list while iterating over it, which must not skip entries for any list", "anchors": ["sidetopics/model/evals.py::mean_reciprocal_rank"]}
{"id": "C25", "title": "Recall at m is a proportion and grows with m", "statement": "Recall at m lies between 0 and 1 for every group, never decreases when m grows, and reaches 1 once m is at least the length of a ranking containing all expected links.", "quantifier": "every ranking, every list of cut-offs and every grouping", "why_tests_cant": "monotonicity over all cut-offs and rankings", "anchors": ["sidetopics/model/evals.py::mean_prec_rec_at"]}
{"id": "C26", "title": "Precision at m is a proportion of the top m links", "statement": "Precision at m is the share of the top m ranked links that are expected links, hence at most 1.", "quantifier": "every ranking and every cut-off m >= 1", "why_tests_cant": "the violation needs m+1 leading hits; the exact worst case over all rankings is a universally quantified bound", "anchors": ["sidetopics/model/evals.py::mean_prec_rec_at"]}
{"id": "C27", "title": "Group breakdown of precision and recall is complete", "statement": "When every document's link count falls in one of the requested ranges, each document with links is counted in exactly one requested range - the first that contains it - and in the overall group, so the range counts add up to the overall count; a document outside all ranges makes the evaluation fail, and with the default grouping it fails as soon as any document has a link.", "quantifier": "every list of ranges and every list of per-document link counts", "why_tests_cant": "depends on an unbounded scan over user supplied ranges", "anchors": ["sidetopics/model/evals.py::mean_prec_rec_at"]}
{"id": "C28", "title": "Perplexity behaves like a perplexity", "statement": "Perplexity is at least 1 when the log-likelihood is not positive, decreases strictly as log-likelihood grows, and is the exponential of the negative per-token log-likelihood; pooling folds by adding likelihoods and token counts gives a value between the smallest and the largest per-fold perplexity.", "quantifier": "every real log-likelihood and every positive token count", "why_tests_cant": "inequalities over the reals", "anchors": ["sidetopics/model/evals.py::perplexity_from_like", "sidetopics/run/__main__.py::cross_val_and_eval_perplexity"]}
{"id": "C29", "title": "Combining fold averages gives the pooled average", "statement": "Combining per-fold averages and document counts over any number of folds gives, for every group and cut-off, the document-weighted average over all folds and the total document count; combining fails (division by zero) exactly when a group has had no documents in all folds so far.", "quantifier": "every number of folds, all averages and counts", "why_tests_cant": "a fold over an unbounded history of partial results", "anchors": ["sidetopics/run/__main__.py::combine_map", "sidetopics/run/__main__.py::cross_val_and_eval_tag_prec_rec_at_m"]}
{"id": "C30", "title": "Moving tags out of a matrix loses nothing", "statement": "Splitting a word matrix on a set of columns gives two matrices that add up to the original, never share a non-zero position, agree with the original outside the chosen columns on the left, and are zero outside the chosen columns on the right; with removal probability one every chosen entry moves.", "quantifier": "every matrix, column set, removal probability and random stream", "why_tests_cant": "quantifies over all random streams", "anchors": ["sidetopics/run/__main__.py::soft_split_on_indices"]}
{"id": "C31", "title": "Most popular words are really the most popular", "statement": "Selecting the most popular words among candidates returns min(count, candidates) distinct candidates in non-increasing order of total count, none of which is less frequent than a candidate left out.", "quantifier": "every word matrix, candidate list and positive count, for any tie-breaking of the sort", "why_tests_cant": "top-k optimality over all count vectors", "anchors": ["sidetopics/run/__main__.py::popular_indices", "sidetopics/run/__main__.py::popular_hashtag_indices"]}
{"id": "C32", "title": "The cross-validation driver visits folds once each and pools exactly the finished ones", "statement": "The perplexity driver terminates for every pattern of failing folds, attempts folds in order and each at most once, never counts more than the requested number of folds, and its totals are the sums over precisely the folds it reports as finished; a fold is finished if training, querying and scoring succeeded.", "quantifier": "every number of folds, truncation and every pattern of failures at every stage", "why_tests_cant": "quantifies over all failure histories, including failures while saving", "anchors": ["sidetopics/run/__main__.py::cross_val_and_eval_perplexity"]}
{"id": "C33", "title": "Truncating the number of folds is honoured by every driver", "statement": "Asking for at most r folds makes the cross-validation drivers stop after r successfully completed folds.", "quantifier": "every number of folds and every failure pattern", "why_tests_cant": "the hashtag driver never advances its counter, which is invisible unless runs longer than the truncation are observed", "anchors": ["sidetopics/run/__main__.py::cross_val_and_eval_hashtag_prec_at_m", "sidetopics/run/__main__.py::cross_val_and_eval_perplexity"]}
{"id": "C34", "title": "User selection never asks a group for more than it has and meets the target", "statement": "Splitting a target number of tweets over groups never assigns a group more than its total; when it returns through the balancing path the assigned total is at least the target; it returns whenever the corpus has at least the target available and fails (division by zero) when there are no groups.", "quantifier": "every assignment of counts to groups and every target", "why_tests_cant": "the balancing loop removes elements from the list it iterates over; the claim is over all histories of that loop", "anchors": ["sidetopics/run/selectusers.py::select_group_contribs"]}
{"id": "C35", "title": "Selected users cover each group's contribution minimally", "statement": "For each group the users chosen have tweets adding up to at least the group's contribution unless the whole group is chosen, and dropping the last chosen user would fall short.", "quantifier": "every group and every contribution", "why_tests_cant": "minimality over all user lists", "anchors": ["sidetopics/run/selectusers.py::select_users"]}
{"id": "C36", "title": "Per-user counts are summed and filtered strictly", "statement": "Reading user counts sums the lines of the same user and group and keeps exactly the users whose total lies strictly between the two bounds.", "quantifier": "every input file (list of parsed lines) and every pair of bounds", "why_tests_cant": "unbounded files with repeated users in any order", "anchors": ["sidetopics/run/selectusers.py::read_counts"]}
{"id": "C37", "title": "Parenthesised text is eliminated completely", "statement": "Eliminating parentheses keeps exactly the characters outside any parentheses, leaves text without an opening parenthesis unchanged, removes each balanced parenthesised part including nested ones, and is idempotent.", "quantifier": "every string", "why_tests_cant": "nesting depth is unbounded", "anchors": ["sidetopics/run/arxiv_to_aan.py::eliminateParentheses"]}
{"id": "C38", "title": "Exported text fields survive a CSV round-trip", "statement": "A text value written by the results exporter is read back unchanged by a reader of doubled-quote CSV.", "quantifier": "every string", "why_tests_cant": "false exactly for values containing a double quote, where the quote is escaped twice; the exact set of good values is a statement over all strings", "anchors": ["sidetopics/run/reshape_results.py::write_all_results"]}
{"id": "C39", "title": "Rolled-up result groups are document-weighted averages", "statement": "The rolled-up groups have the sum of the document counts of their parts and, when that sum is positive, the document-weighted average of their scores, which lies between the smallest and the largest part's score; with no documents the roll-up fails.", "quantifier": "every table of scores and counts", "why_tests_cant": "inequalities over all score tables", "anchors": ["sidetopics/run/reshape_results.py::roll_up_and_average"]}
{"id": "C40", "title": "Author identifiers are a bijection", "statement": "Every distinct author name gets exactly one identifier, the identifiers are 1..n without gaps, and they increase with the name.", "quantifier": "every metadata file", "why_tests_cant": "unbounded inputs with duplicates", "anchors": ["sidetopics/run/arxiv_author_ids.py::run"]}
{"id": "C41", "title": "The vector transpose is an involution that loses nothing", "statement": "The p-vector-transpose of a floating-point matrix whose row count is a multiple of p moves every element to exactly one place of a matrix of the transposed block shape, and applying it twice gives the original matrix.", "quantifier": "every matrix size, every p dividing the number of rows", "why_tests_cant": "index arithmetic over all sizes", "anchors": ["sidetopics/util/vectrans.py::vec_transpose", "sidetopics/util/vt_fast.pyx::vec_transpose_f8r"]}
{"id": "C42", "title": "Sparse and dense vector transposes agree", "statement": "The vector transpose of a (float or 32-bit integer) CSR matrix computed by walking its stored entries equals the dense vector transpose, including when rows are empty.", "quantifier": "every well-formed CSR matrix and every p dividing the number of rows", "why_tests_cant": "the walk recovers row ids from the pointer array and must skip any pattern of empty rows", "anchors": ["sidetopics/util/vectrans.py::vec_transpose_csr", "sidetopics/util/vectrans.py::_vec_transpose_csr_jit", "sidetopics/util/vt_fast.pyx::vec_transpose_csr_f8"]}
{"id": "C43", "title": "The transposition matrix permutes vec(A) into vec(A^T)", "statement": "Multiplying the generated sparse matrix with the column-stacked A gives the column-stacked transpose of A; the generated matrix has exactly one 1 in every row and column.", "quantifier": "every number of rows and columns and every matrix", "why_tests_cant": "index identity over all sizes", "anchors": ["sidetopics/util/vectrans.py::sp_vec_trans_matrix"]}
{"id": "C44", "title": "Row and column ids are recovered from CSR pointers", "statement": "Listing the coordinates of a CSR matrix yields, for every stored entry, the row whose pointer range contains it and its column.", "quantifier": "every well-formed CSR matrix", "why_tests_cant": "all patterns of empty rows", "anchors": ["sidetopics/util/se_fast.pyx::csr_indices", "sidetopics/util/sparse_elementwise.py::csr_indices"]}
{"id": "C45", "title": "Sparse element-wise kernels compute the documented product on the whole matrix", "statement": "Dividing, multiplying or log-multiplying the stored entries of a sparse matrix by the product of two dense factors returns, at every stored position (row, column), the entry combined with the inner product of that row and column, and leaves the sparsity pattern unchanged.", "quantifier": "every well-formed CSR matrix and all dense factors", "why_tests_cant": "all sparsity patterns", "anchors": ["sidetopics/util/sparse_elementwise.py::sparseScalarQuotientOfDot", "sidetopics/util/sparse_elementwise.py::sparseScalarProductOfDot", "sidetopics/util/sparse_elementwise.py::sparseScalarProductOfSafeLnDot", "sidetopics/util/se_fast.pyx::sparseScalarQuotientOfDot_f8"]}
{"id": "C46", "title": "Sparse element-wise kernels restricted to a row range", "statement": "Restricting the sparse element-wise kernels to rows start..end returns the kernel's values for exactly those rows.", "quantifier": "every CSR matrix and every row range", "why_tests_cant": "false whenever start > 0 and earlier rows store entries; tests use full ranges", "anchors": ["sidetopics/util/sparse_elementwise.py::sparseScalarQuotientOfDot", "sidetopics/util/se_fast.pyx::sparseScalarQuotientOfDot_f8", "sidetopics/util/se_fast.pyx::sparseScalarProductOfDot_f8"]}
{"id": "C47", "title": "Softmax returns distributions", "statement": "Row-wise (column-wise) softmax returns strictly positive entries summing to one in every row (column), preserves the order of scores, and is unchanged by adding a constant to a row.", "quantifier": "every real matrix", "why_tests_cant": "real-valued identities", "anchors": ["sidetopics/util/sigmoid_utils.py::rowwise_softmax", "sidetopics/util/sigmoid_utils.py::colwise_softmax"]}
{"id": "C48", "title": "The stable log(1+exp x) is accurate everywhere", "statement": "The piecewise implementation of log(1+exp x) is within a fixed tiny absolute error (double precision 4.7e-15, single precision 1.1e-6) of the true value for every argument, is never below max(0, x), and is exact on the middle region.", "quantifier": "every real x", "why_tests_cant": "a bound over the continuum with four regions", "anchors": ["sidetopics/util/se_fast.pyx::_safe_log_one_plus_exp_f8", "sidetopics/util/se_fast.pyx::_safe_log_one_plus_exp_f4", "sidetopics/util/overflow_safe.py::safe_log_one_plus_exp_of"]}
{"id": "C49", "title": "Scaled soft dot products use the scale", "statement": "The scaled self soft dot product weights each row's contribution by the given scale.", "quantifier": "every matrix and scale vector", "why_tests_cant": "false whenever the scales are not all one; needs the exact relation between the two functions for all inputs", "anchors": ["sidetopics/util/sigmoid_utils.py::scaledSelfSoftDot", "sidetopics/util/sig_fast.pyx::scaledSelfSoftDot"]}
{"id": "C50", "title": "Training stops for convergence only when the bound has flattened", "statement": "The convergence check never fires before the second measurement or before the minimum number of iterations, and otherwise fires only if the bound changed by little since the previous measurement.", "quantifier": "every sequence of iteration numbers and bound values", "why_tests_cant": "all real sequences; false for every sharply decreasing bound", "anchors": ["sidetopics/util/misc.py::converged"]}
{"id": "C51", "title": "Gibbs sampling keeps its count tables consistent", "statement": "During training, after any number of sweeps and for every sequence of random topic draws, the document-topic, topic-word and topic tables are exactly the counts of the current token assignments, so no count is negative, each document's counts add up to its length, and totals never change.", "quantifier": "every corpus, number of topics, number of sweeps and every sequence of draws", "why_tests_cant": "an invariant over unbounded random histories", "anchors": ["sidetopics/model/lda_gibbs_fast.pyx::sample", "sidetopics/model/lda_gibbs_fast.pyx::sumSuffStats"]}
{"id": "C52", "title": "Every sweep resamples every token exactly once", "statement": "One Gibbs sweep visits each token of each document exactly once whatever random starting offset is drawn for the document.", "quantifier": "every list of document lengths and every choice of offsets", "why_tests_cant": "modular arithmetic over all lengths and offsets", "anchors": ["sidetopics/model/lda_gibbs_fast.pyx::sample"]}
{"id": "C53", "title": "Querying a Gibbs model leaves its topic-word counts alone", "statement": "While querying, the topic-word and topic tables are never changed by sampling, only the document-topic table and the assignments, and the accumulated vocabulary estimate is not changed.", "quantifier": "every corpus, number of sweeps, draws and thinning", "why_tests_cant": "an invariant over unbounded random histories", "anchors": ["sidetopics/model/lda_gibbs_fast.pyx::sample", "sidetopics/model/lda_gibbs.py::query"]}
{"id": "C54", "title": "The sampled topic is always a valid topic", "statement": "Choosing a topic from the unnormalised topic weights always yields an index in 0..K-1 chosen so that the draw falls in that topic's share of the total.", "quantifier": "every vector of positive weights and every draw the generator can produce, including its extreme values", "why_tests_cant": "the generator returns exactly zero once in 2^31 draws; only then does the selection leave the valid range", "anchors": ["sidetopics/model/lda_gibbs_fast.pyx::sample", "sidetopics/model/dmr_fast.pyx::sample"]}
{"id": "C55", "title": "Flattening a corpus into tokens preserves counts", "statement": "Flattening a word-count matrix yields a token list in which, for each document, every word occurs exactly as often as its count, documents are contiguous and the reported lengths are the row sums.", "quantifier": "every well-formed CSR matrix of counts", "why_tests_cant": "unbounded sizes and counts", "anchors": ["sidetopics/model/lda_gibbs_fast.pyx::flatten", "sidetopics/model/dmr_fast.pyx::flatten", "sidetopics/model/lda_cvb0_fast.pyx::toWordList_f64"]}
{"id": "C56", "title": "Burn-in is never sampled and thinning takes every thin-th sweep", "statement": "Training with b burn-in iterations, n iterations and thinning t averages exactly n // t samples, all after burn-in; the averaged estimates are defined exactly when t <= n.", "quantifier": "every iteration count, burn-in and thinning >= 1", "why_tests_cant": "all combinations of three unbounded plan parameters", "anchors": ["sidetopics/model/lda_gibbs.py::newTrainPlan", "sidetopics/model/lda_gibbs.py::train", "sidetopics/model/lda_gibbs_fast.pyx::sample"]}
{"id": "C57", "title": "Gibbs topic and word estimates are distributions", "statement": "After at least one sample, each document's topic estimate and each topic's word estimate are strictly positive and sum to one.", "quantifier": "every corpus, positive priors, draws and number of samples", "why_tests_cant": "an average over an unbounded number of random states", "anchors": ["sidetopics/model/lda_gibbs.py::topicDists", "sidetopics/model/lda_gibbs.py::wordDists", "sidetopics/model/lda_gibbs_fast.pyx::sample"]}
{"id": "C58", "title": "Querying a Gibbs model preserves its word distributions", "statement": "The model returned by a query has the same word distributions as the model that was queried.", "quantifier": "every trained model and every query plan", "why_tests_cant": "false whenever the query takes a different number of samples than training did; needs the exact relation for all plans", "anchors": ["sidetopics/model/lda_gibbs.py::query", "sidetopics/model/lda_gibbs.py::wordDists", "sidetopics/model/sklearn/lda_cvb.py::TopicModel.transform"]}
{"id": "C59", "title": "Feature-driven topic sampling stays inside its sample buffer", "statement": "Training or querying the Dirichlet-multinomial-regression model stores each sample of per-document topic counts inside the buffer allocated for it.", "quantifier": "every training plan", "why_tests_cant": "bounds checks are disabled, so a violation corrupts memory silently; which plans violate it is an arithmetic question over all plans", "anchors": ["sidetopics/model/dmr.py::train", "sidetopics/model/dmr.py::query", "sidetopics/model/dmr.py::newTrainPlan", "sidetopics/model/dmr_fast.pyx::sample"]}
{"id": "C60", "title": "Regression weights are fitted to the samples actually taken", "statement": "Each weight update of the Dirichlet-multinomial-regression model uses, as its i-th sample, the i-th sample of topic counts taken so far.", "quantifier": "every training plan and history of samples", "why_tests_cant": "history-dependent: later sampling rounds overwrite earlier slots", "anchors": ["sidetopics/model/dmr.py::train", "sidetopics/model/dmr_fast.pyx::sample"]}
{"id": "C61", "title": "Collapsed variational counts always equal the sums of the token responsibilities", "statement": "During training of the collapsed variational (CVB0) model, after any number of iterations, document-topic, topic-word and topic counts are the sums of the per-token topic probabilities (plus the model's own counts when refining); each token's probabilities sum to one, so each document's counts add up to its length and the grand total never changes.", "quantifier": "every corpus, priors, initial responsibilities and number of iterations (exact arithmetic)", "why_tests_cant": "an invariant over unbounded iteration", "anchors": ["sidetopics/model/lda_cvb0_fast.pyx::iterate_f64", "sidetopics/model/lda_cvb0_fast.pyx::calculateCounts_f64"]}
{"id": "C62", "title": "Querying a CVB0 model does not change it, training accumulates", "statement": "Querying leaves the model's counts unchanged and returns only the query documents' own counts; refining a trained model with new data makes its topic-word counts the old ones plus those of the new documents; scoring restores the counts it temporarily adjusts.", "quantifier": "every model, query corpus and number of iterations", "why_tests_cant": "temporary in-place additions must cancel on every path", "anchors": ["sidetopics/model/lda_cvb0.py::train", "sidetopics/model/lda_cvb0.py::query", "sidetopics/model/lda_cvb0.py::log_likelihood_point"]}
{"id": "C63", "title": "Second-order collapsed variational variances equal the sums of token variances", "statement": "During training of the second-order collapsed variational model the stored variances are the sums of p(1-p) over the tokens they summarise, in both precisions.", "quantifier": "every corpus, iteration count and initial state", "why_tests_cant": "an invariant over unbounded iteration; true for double precision and false for single precision", "anchors": ["sidetopics/model/lda_cvb_fast.pyx::iterate_f64", "sidetopics/model/lda_cvb_fast.pyx::iterate_f32"]}
{"id": "C64", "title": "Refining a second-order collapsed variational model accumulates counts", "statement": "Fitting an already trained second-order collapsed variational model to more data makes its topic counts the old ones plus those of the new documents.", "quantifier": "every trained model and corpus", "why_tests_cant": "two-step history: the overwritten field only matters in the second fit", "anchors": ["sidetopics/model/lda_cvb.py::train"]}
{"id": "C65", "title": "Variational training runs exactly the requested number of iterations", "statement": "With no early stopping, segment-wise variational training performs exactly the requested number of iterations and takes one measurement per log point, whatever the log frequency; early stopping never makes it longer.", "quantifier": "every iteration count and log frequency", "why_tests_cant": "all pairs of two unbounded parameters", "anchors": ["sidetopics/model/lda_vb.py::train", "sidetopics/model/lda_svb.py::train", "sidetopics/model/lda_cvb0.py::train", "sidetopics/model/lda_cvb.py::train"]}
{"id": "C66", "title": "Variational LDA conserves token mass", "statement": "After every iteration of variational Bayes each vocabulary parameter is the prior plus the expected number of occurrences of the word in the topic, so that the parameters sum to topics*words*prior plus the number of tokens and none is below the prior.", "quantifier": "every corpus, prior and number of iterations", "why_tests_cant": "an invariant over all corpora and iterations", "anchors": ["sidetopics/model/lda_vb_fast.pyx::iterate_f32", "sidetopics/model/lda_vb_fast.pyx::infer_topics_f64"]}
{"id": "C67", "title": "Per-document variational inference stops after exactly three inner rounds", "statement": "The result of inferring one document's topics does not depend on how many inner rounds are run (the rounds are idempotent after the first), and exactly three are run.", "quantifier": "every document, prior and vocabulary", "why_tests_cant": "claims over all real-valued states of a convergence loop", "anchors": ["sidetopics/model/lda_vb_fast.pyx::infer_topics_f64"]}
{"id": "C68", "title": "Mixture-of-multinomials EM keeps proper distributions", "statement": "After training for at least one iteration each document's topic responsibilities are positive and sum to one and, unless training stops in its very first iteration (then the parameters are the initial ones), topic parameters sum to the prior total plus the number of documents and word parameters sum to the prior total plus the number of tokens.", "quantifier": "every corpus, priors and number of iterations", "why_tests_cant": "an invariant over unbounded iteration", "anchors": ["sidetopics/model/mom_em.py::train"]}
{"id": "C69", "title": "Querying a mixture-of-multinomials EM model is a single step", "statement": "The result of a query does not depend on the number of iterations (if at least one), on the initial query state, nor on early stopping, and the model is unchanged; a query with zero iterations fails.", "quantifier": "every model, corpus, plan and initial state", "why_tests_cant": "independence from arbitrary initial states", "anchors": ["sidetopics/model/mom_em.py::query"]}
{"id": "C70", "title": "Mixture-of-multinomials Gibbs sampling keeps hard, counted memberships", "statement": "After each Gibbs sweep every document belongs to exactly one topic and the weight used for each topic when a document is drawn is the prior plus the number of other documents in the topic, for every sequence of draws.", "quantifier": "every corpus and every sequence of draws", "why_tests_cant": "an invariant over unbounded random histories", "anchors": ["sidetopics/model/mom_gibbs.py::sample_memberships"]}
{"id": "C71", "title": "Short mixture Gibbs plans are usable", "statement": "Every plan with at least one iteration can be trained and queried and takes at least one sample.", "quantifier": "every iteration count", "why_tests_cant": "fails with division by zero for all plans under ten iterations; the boundary is a statement over all plans", "anchors": ["sidetopics/model/mom_gibbs.py::newTrainPlan", "sidetopics/model/mom_gibbs.py::is_sampling_iteration", "sidetopics/model/mom_gibbs.py::query"]}
{"id": "C72", "title": "Switching between topic means and Dirichlet parameters is lossless", "statement": "Converting topic parameters to means and back (or the other way round) restores them exactly, so that measuring the bound or likelihood in the middle of training or predicting links does not disturb the state.", "quantifier": "every topic matrix, prior and positive document lengths", "why_tests_cant": "round trip over all real matrices", "anchors": ["sidetopics/model/lda_vb_python.py::_convertDirichletParamToMeans", "sidetopics/model/lda_vb_python.py::_convertMeansToDirichletParam", "sidetopics/model/rtm.py::min_link_probs", "sidetopics/model/rtm.py::link_probs"]}
{"id": "C73", "title": "Online batches cycle through all documents fairly", "statement": "Mini-batch training visits documents in cyclic order; within one pass (batch count times batch size visits) every document is visited, and visit counts of two documents never differ by more than one.", "quantifier": "every number of documents, batch size and number of iterations", "why_tests_cant": "modular scheduling over unbounded histories", "anchors": ["sidetopics/model/lda_vb_python.py::train"]}
{"id": "C74", "title": "Querying the Python variational model does not alter it", "statement": "Inferring topics for new documents with a trained model leaves the model's word distributions unchanged.", "quantifier": "every model, corpus and plan", "why_tests_cant": "false for every plan with at least one iteration; the mutation is through a shared array", "anchors": ["sidetopics/model/lda_vb_python.py::query", "sidetopics/model/lda_vb_python.py::train"]}
{"id": "C75", "title": "The requested online learning-rate schedule is used", "statement": "A training plan records the learning-rate algorithm the caller asked for.", "quantifier": "every combination of plan parameters", "why_tests_cant": "finite combinations per flag but depends on an unbounded batch size; false for positive batch sizes", "anchors": ["sidetopics/model/lda_vb_python.py::newTrainPlan"]}
{"id": "C76", "title": "Resuming requires the same dataset and persisted state", "statement": "A fit or transform with resume succeeds only if the immediately preceding fit or transform was given the same dataset object and asked to persist its state; otherwise a ValueError is raised and nothing changes; transforming before any fit raises a ValueError.", "quantifier": "every sequence of fit, transform and score calls", "why_tests_cant": "claims over all call histories of a stateful object", "anchors": ["sidetopics/model/sklearn/lda_cvb.py::TopicModel.fit", "sidetopics/model/sklearn/lda_cvb.py::TopicModel.transform", "sidetopics/model/sklearn/lda_cvb.py::TopicModel.make_or_resume_query_state"]}
{"id": "C77", "title": "fit_transform works for plain matrices", "statement": "fit_transform accepts a plain word matrix just like fit and transform do.", "quantifier": "every plain matrix and every model state", "why_tests_cant": "false for every plain matrix: the wrapper object created by each call differs; depends on object identity, not values", "anchors": ["sidetopics/model/sklearn/lda_cvb.py::TopicModel.fit_transform", "sidetopics/model/sklearn/lda_cvb.py::TopicModel.transform"]}
{"id": "C78", "title": "Scoring dispatches on its arguments as documented", "statement": "Scoring rejects both representations at once, rejects bound-based methods for point representations, and otherwise returns a likelihood or perplexity; giving neither representation is accepted for every method.", "quantifier": "every combination of arguments and method", "why_tests_cant": "false for bound-based methods when neither representation is given", "anchors": ["sidetopics/model/sklearn/lda_cvb.py::TopicModel.score"]}
{"id": "C79", "title": "Mixture scores are log-likelihoods", "statement": "The per-document point score of a mixture model is the logarithm of the mixture likelihood.", "quantifier": "every positive weighting and component matrix and every document", "why_tests_cant": "a real-analysis claim: the implementation omits a logarithm, and the error can be bounded for all inputs", "anchors": ["sidetopics/model/sklearn/lda_cvb.py::TopicModel._log_likelihood_score_point"]}
{"id": "C80", "title": "Link prediction keeps every expected link and nothing below the minimum", "statement": "The sparse link predictions contain, for every evaluated document, every expected link of that document, and only links scoring at least the document's minimum expected score (minus 1e-9).", "quantifier": "every score function, link matrix and document subset", "why_tests_cant": "all score functions and subsets; row positions differ from document ids when a subset is used", "anchors": ["sidetopics/model/sim_based_rec.py::link_probs_lda", "sidetopics/model/sim_based_rec.py::min_link_probs_lda", "sidetopics/model/lro_vb.py::link_probs", "sidetopics/model/rtm.py::link_probs"]}
{"id": "C81", "title": "Each undirected link is considered exactly once by the relational model", "statement": "Iterating over all documents and taking the links to earlier documents enumerates every undirected link between different documents exactly once.", "quantifier": "every symmetric link matrix with sorted column ids; false for unsorted ids", "why_tests_cant": "the early exit is only right for sorted rows, which sparse arithmetic does not guarantee", "anchors": ["sidetopics/model/rtm.py::_links_up_to_csr"]}
{"id": "C82", "title": "Pruning never cuts columns off a rectangular link matrix", "statement": "Pruning a dataset whose link matrix is not square (for instance users by items) keeps every link column.", "quantifier": "every dataset with a rectangular link matrix, every threshold and shuffle", "why_tests_cant": "false: during pruning the number of rows can become equal to the number of columns by accident, after which the columns are re-ordered and cut as if they were documents", "anchors": ["sidetopics/model/common.py::DataSet.prune_and_shuffle", "sidetopics/model/common.py::DataSet.reorder"]}
{"id": "C83", "title": "Vector transposes work for every element type", "statement": "The dense and the sparse vector transpose work for matrices of any numeric element type, falling back to pure Python where there is no compiled version, as documented.", "quantifier": "every element type, every matrix and p dividing the number of rows", "why_tests_cant": "tests use floats; the fallback branches are reached only for other types (false: both fallbacks raise)", "anchors": ["sidetopics/util/vectrans.py::vec_transpose", "sidetopics/util/vectrans.py::_vec_transpose_csr_jit"]}
{"id": "C84", "title": "Mean average precision penalises expected links that were not retrieved", "statement": "An expected link that is missing from a document's ranking contributes nothing to that document's average precision, so only a ranking containing every expected link can score 1.", "quantifier": "every ranking that misses some expected link", "why_tests_cant": "false: a missing link is scored as if it came right after the last retrieved one, and the score can be 1 although links are missing; the exact behaviour needs all rankings", "anchors": ["sidetopics/model/evals.py::mean_average_prec"]}
{"id": "C85", "title": "The tag prediction scores depend on the model's predictions", "statement": "In the tag prediction driver a model that ranks the held-out tags below other tags gets a lower mean average precision than one that ranks them first.", "quantifier": "every model output and every set of held-out tags", "why_tests_cant": "false: the predictions are computed only at the positions of the held-out tags, so every model gets the same mean average precision; a test with a good model sees a plausible score", "anchors": ["sidetopics/run/__main__.py::cross_val_and_eval_tag_prec_rec_at_m"]}
{"id": "C86", "title": "The stable log(1+exp x) is increasing", "statement": "The piecewise implementation of log(1+exp x) never decreases when its argument grows.", "quantifier": "every pair of real arguments", "why_tests_cant": "false: there is a drop of about 1e-15 at the lower seam, found only by an argument in a tiny interval next to it; the size of any drop is a statement about all pairs", "anchors": ["sidetopics/util/se_fast.pyx::_safe_log_one_plus_exp_f8"]}
{"id": "C87", "title": "The safe logarithm clips from below, in place or not", "statement": "The safe logarithm returns the logarithm of the argument clipped from below to a tiny positive constant, whether or not it writes into its own argument; it is exact above the constant, bounded below, and never decreases.", "quantifier": "every real argument and both element types", "why_tests_cant": "two code paths over the continuum", "anchors": ["sidetopics/util/overflow_safe.py::safe_log"]}
{"id": "C88", "title": "The safe x log x is the entropy term", "statement": "For arguments that are not negative the safe x log x is x log x, zero at zero, at least -1/e, and not positive on [0,1].", "quantifier": "every non-negative real", "why_tests_cant": "an inequality over the continuum", "anchors": ["sidetopics/util/overflow_safe.py::safe_x_log_x"]}
{"id": "C89", "title": "Log-sum-exp is bracketed by the maximum", "statement": "The log-sum-exp of a row is at least its maximum and at most the maximum plus the logarithm of the number of columns, and the softmax is the exponential of the score minus the log-sum-exp.", "quantifier": "every real row with at least one column", "why_tests_cant": "real-valued inequalities", "anchors": ["sidetopics/util/sigmoid_utils.py::lse"]}
{"id": "C90", "title": "The safe determinant is always positive", "statement": "The safe determinant is the larger of the determinant and the smallest positive constant of the element type.", "quantifier": "every determinant value and both element types", "why_tests_cant": "three regions over the continuum", "anchors": ["sidetopics/util/overflow_safe.py::safeDet"]}
{"id": "C91", "title": "Topic priors derived from features are positive", "statement": "The Dirichlet-multinomial-regression sampler works with a positive prior for every document and topic, as its own objective function does.", "quantifier": "every feature matrix and every weight matrix", "why_tests_cant": "depends on data (a document without features) and on fitted weights; the failure is an out-of-bounds write in compiled code", "anchors": ["sidetopics/model/dmr.py::train", "sidetopics/model/dmr.py::objective", "sidetopics/model/dmr_fast.pyx::sample"]}
{"id": "C92", "title": "A corpus of any number of documents can be sampled", "statement": "Flattening a corpus yields a vector of document lengths with one entry per document, whatever the number of documents, so that training and querying can read the number of documents from it.", "quantifier": "every corpus with at most 65536 words", "why_tests_cant": "false for exactly one document, where numpy drops the only dimension", "anchors": ["sidetopics/model/lda_gibbs_fast.pyx::flatten", "sidetopics/model/lda_gibbs.py::train", "sidetopics/model/lda_gibbs.py::query", "sidetopics/model/dmr_fast.pyx::flatten"]}
{"id": "C93", "title": "A collapsed variational update is the normalised weight without the token itself", "statement": "Updating a token of the CVB0 model sets its topic probabilities to the normalised product of (document count + topic prior), (word count + word prior) and 1/(topic count + total word prior), all counts taken without the token's own contribution; the probabilities of all other tokens are unchanged.", "quantifier": "every consistent state, token and positive priors (exact arithmetic)", "why_tests_cant": "an equation over all real-valued states, in compiled code that updates counts in place", "anchors": ["sidetopics/model/lda_cvb0_fast.pyx::iterate_f64"]}
{"id": "C94", "title": "Continuing training does not count documents twice", "statement": "Training a CVB0 model further on the same documents with the query state kept from the last fit leaves every document's counts adding up to its length and the topic-word counts to the number of tokens.", "quantifier": "every corpus, model and number of iterations", "why_tests_cant": "two-step history: the second fit starts from counts that already include the documents", "anchors": ["sidetopics/model/lda_cvb0.py::train", "sidetopics/model/sklearn/lda_cvb.py::TopicModel.fit"]}
{"id": "C95", "title": "Copying a second-order collapsed variational model copies its variances", "statement": "A copy of a second-order collapsed variational model has the same counts and the same variances as the original.", "quantifier": "every trained model", "why_tests_cant": "one wrong field among many; only observable by a model whose counts and variances differ", "anchors": ["sidetopics/model/lda_cvb.py::newModelFromExisting"]}
{"id": "C96", "title": "Variational Bayes can be trained and queried in either precision", "statement": "A variational Bayes model (batch or stochastic) can be trained with the default plan and afterwards queried in single and in double precision.", "quantifier": "both precisions and every plan with a log frequency not exceeding the iterations", "why_tests_cant": "depends on which of two equally named compiled functions wins, and on buffer types checked at run time", "anchors": ["sidetopics/model/lda_vb.py::train", "sidetopics/model/lda_vb.py::query", "sidetopics/model/lda_svb.py::train", "sidetopics/model/lda_vb_fast.pyx::iterate_f64"]}
{"id": "C97", "title": "Reading the distributions of a variational Bayes model does not change it", "statement": "Asking a variational Bayes model for its word distributions, or a query state for its topic distributions, returns the normalised parameters and leaves model and query state unchanged, so measuring during training does not influence training.", "quantifier": "every model and query state", "why_tests_cant": "an aliasing side effect; the returned values are right", "anchors": ["sidetopics/model/lda_vb.py::wordDists", "sidetopics/model/lda_vb.py::topicDists"]}
{"id": "C98", "title": "Mini-batch variational Bayes learns from its batches", "statement": "With a positive batch size the stochastic variational trainer changes the vocabulary parameters after every full batch.", "quantifier": "every corpus, batch size, prior and number of iterations", "why_tests_cant": "a counter that is never advanced makes the update unreachable for all inputs", "anchors": ["sidetopics/model/lda_vb_fast.pyx::iterate_f64"]}
{"id": "C99", "title": "Querying a second-order collapsed variational model does not change it", "statement": "A query with the second-order collapsed variational model in double precision leaves the model's counts and variances as they were and returns only the query documents' own counts and variances.", "quantifier": "every model, query corpus and number of iterations", "why_tests_cant": "temporary in-place additions must cancel for counts and variances", "anchors": ["sidetopics/model/lda_cvb.py::query"]}
{"id": "C100", "title": "Inferred topics of a document do not depend on the other documents", "statement": "The topics a variational Bayes model infers for a document depend on the model and the words of this document only, whatever other documents are in the same query.", "quantifier": "every model, every document and every two query corpora containing it", "why_tests_cant": "a relation between all pairs of corpora containing a document", "anchors": ["sidetopics/model/lda_vb_fast.pyx::infer_topics_f64", "sidetopics/model/lda_vb.py::query"]}
{"id": "C101", "title": "Words are interpreted in the context of their document", "statement": "When per-document variational inference stops, the topic probabilities of each word are those given by the vocabulary and the returned topics of its document (a stationary point of the inference).", "quantifier": "every model and document", "why_tests_cant": "a fixed-point equation over all real-valued states", "anchors": ["sidetopics/model/lda_vb_fast.pyx::infer_topics_f64"]}
{"id": "C102", "title": "The variational bound is a function of model and data", "statement": "The variational bound of a variational Bayes model depends on the model, the data and the inferred topics only.", "quantifier": "every model, corpus and contents of uninitialised memory", "why_tests_cant": "depends on uninitialised memory, and only for documents of different lengths", "anchors": ["sidetopics/model/lda_vb.py::var_bound"]}
{"id": "C103", "title": "Querying a variational Bayes model is a single step", "statement": "A query leaves the model unchanged, and its result depends neither on the number of iterations (if at least one) nor on the initial query state.", "quantifier": "every model, corpus, initial query state and number of iterations", "why_tests_cant": "independence from arbitrary initial states", "anchors": ["sidetopics/model/lda_vb.py::query", "sidetopics/model/lda_vb_fast.pyx::query_f64"]}
{"id": "C104", "title": "Mixture models can be trained with the default plan", "statement": "Both mixture-of-multinomials models (EM and Gibbs) can be trained on every corpus of non-empty documents with the default plan.", "quantifier": "every corpus of non-empty documents, priors and draws", "why_tests_cant": "the failure depends on logging frequency and on early convergence", "anchors": ["sidetopics/model/mom_em.py::train", "sidetopics/model/mom_em.py::var_bound", "sidetopics/model/mom_gibbs.py::train"]}
{"id": "C105", "title": "The expected likelihood of the EM mixture can be computed", "statement": "The expected log likelihood of a trained EM mixture can be computed for every corpus, with the given topic assignments or without.", "quantifier": "every model, corpus and query state", "why_tests_cant": "fails for all corpora of one document and whenever assignments are given", "anchors": ["sidetopics/model/mom_em.py::log_likelihood_expected"]}
{"id": "C106", "title": "The expected likelihood of the EM mixture is a probability of sequences", "statement": "Without assignments, the expected log likelihood is the sum over the documents of the logarithm of a mixture of P\u00f3lya urns: the empty document has probability one and the probability of a document is the sum over all next words of the probabilities of the documents extended by this word.", "quantifier": "every model and corpus of at least two documents", "why_tests_cant": "an identity between gamma functions over the reals", "anchors": ["sidetopics/model/mom_em.py::log_likelihood_expected"]}
{"id": "C107", "title": "Mixture Gibbs training returns the average of its samples", "statement": "The topic memberships and word distributions returned by training a Gibbs mixture are the averages of the sampled states.", "quantifier": "every corpus, plan and sequence of draws", "why_tests_cant": "a statement about all histories; the samples are accumulated but never used", "anchors": ["sidetopics/model/mom_gibbs.py::train"]}
{"id": "C108", "title": "Training plans of the Python variational model can be trained", "statement": "Every plan made by newTrainPlan for one of the four known rate algorithms can be trained, and trains with that algorithm.", "quantifier": "every plan and non-empty corpus of non-empty documents", "why_tests_cant": "depends on combinations of an unbounded batch size with the algorithm", "anchors": ["sidetopics/model/lda_vb_python.py::newTrainPlan", "sidetopics/model/lda_vb_python.py::train"]}
{"id": "C109", "title": "Batch training of the Python variational model accounts for every token", "statement": "After batch training for at least one iteration, the word parameters of each word summed over the topics are the priors plus the number of occurrences of the word, each at least the prior; the topic parameters of each document exceed the priors and sum to the priors plus the document's length.", "quantifier": "every non-empty corpus of non-empty documents, initial state and number of iterations", "why_tests_cant": "an identity over the reals after unbounded iteration", "anchors": ["sidetopics/model/lda_vb_python.py::train"]}
{"id": "C110", "title": "Online training keeps word parameters positive", "statement": "Online training (rate algorithm kappa) of a model with positive word parameters gives positive word parameters.", "quantifier": "every model, corpus, batch size and plan", "why_tests_cant": "depends on a real-valued step size and on words missing from a batch; the first default step is larger than one", "anchors": ["sidetopics/model/lda_vb_python.py::train", "sidetopics/model/lda_vb_python.py::update_inplace_v"]}
{"id": "C111", "title": "Online training aims at the word parameters of the whole corpus", "statement": "Each online batch moves the sum of the word parameters towards the priors plus the number of tokens of the corpus (the value after batch training), whatever the batch size.", "quantifier": "every model, corpus and batch size", "why_tests_cant": "a statement about sums over all batch sizes; the gradient of a batch is not scaled to the corpus", "anchors": ["sidetopics/model/lda_vb_python.py::train"]}
{"id": "C112", "title": "An iteration of the Python variational model visits each document once", "statement": "Training for n iterations visits each document n times, with or without batches.", "quantifier": "every corpus, batch size and number of iterations", "why_tests_cant": "counting visits over unbounded schedules", "anchors": ["sidetopics/model/lda_vb_python.py::train"]}
{"id": "C113", "title": "Explicit numbers of iterations are honoured", "statement": "A fit or transform with an explicit number of iterations runs for that number of iterations.", "quantifier": "every number of iterations, model and state", "why_tests_cant": "false for zero only, which is silently replaced by the default", "anchors": ["sidetopics/model/sklearn/lda_cvb.py::TopicModel.fit", "sidetopics/model/sklearn/lda_cvb.py::TopicModel.transform"]}
{"id": "C114", "title": "Scoring does not change the wrapper", "statement": "Scoring leaves the model and the persisted query state as they are.", "quantifier": "every state, dataset, representation and method", "why_tests_cant": "a frame condition over all states of a stateful object", "anchors": ["sidetopics/model/sklearn/lda_cvb.py::TopicModel.score"]}
{"id": "C115", "title": "Every kind of model can be fitted through the wrapper", "statement": "A wrapper of any of the eight kinds can be fitted if its module's functions succeed.", "quantifier": "every kind, reachable state and dataset", "why_tests_cant": "a claim about all reachable states; false for one kind in all of them", "anchors": ["sidetopics/model/sklearn/lda_cvb.py::TopicModel.fit", "sidetopics/model/sklearn/lda_cvb.py::TopicModel.make_or_resume_query_state", "sidetopics/model/sklearn/lda_cvb.py::TopicModelType"]}
{"id": "C116", "title": "Every scoring method is available for every kind of model", "statement": "A wrapper of any kind can score a query state or a point representation with every method that suits the representation.", "quantifier": "every kind, method, representation and state", "why_tests_cant": "a table over kinds and methods, for arbitrary states; many entries are false", "anchors": ["sidetopics/model/sklearn/lda_cvb.py::TopicModel.score", "sidetopics/model/sklearn/lda_cvb.py::ScoreMethod"]}
{"id": "C117", "title": "Names of scoring methods are read", "statement": "A string is read as a scoring method if and only if it is the method's value up to letter case and surrounding white space.", "quantifier": "every string", "why_tests_cant": "an equivalence over all strings", "anchors": ["sidetopics/model/sklearn/lda_cvb.py::ScoreMethod.from_str"]}
{"id": "C118", "title": "Metrics are read from tuples of any length", "statement": "Metrics are made from tuples of up to three values, the missing ones being undefined.", "quantifier": "every tuple", "why_tests_cant": "false for the two shortest lengths", "anchors": ["sidetopics/model/sklearn/lda_cvb.py::EpochMetrics.from_ibl_tuple"]}
{"id": "C119", "title": "Predicted link probabilities lie between 0 and 1", "statement": "Every link probability that the link predictors return lies between zero and one.", "quantifier": "every corpus, model and document pair", "why_tests_cant": "the LDA-based scores exceed one for all but disjoint documents; TF-IDF needs the Cauchy-Schwarz inequality", "anchors": ["sidetopics/model/sim_based_rec.py::link_probs_lda", "sidetopics/model/sim_based_rec.py::link_probs_tfidf", "sidetopics/model/rtm.py::link_probs"]}
{"id": "C120", "title": "Documents are not recommended to themselves", "statement": "The link predictions of a document do not include the document itself.", "quantifier": "every corpus and score function", "why_tests_cant": "every document scores best against itself, whatever the corpus", "anchors": ["sidetopics/model/sim_based_rec.py::link_probs_lda", "sidetopics/model/sim_based_rec.py::link_probs_tfidf"]}
{"id": "C121", "title": "The TF-IDF representation of a query document does not depend on the other query documents", "statement": "Querying a document gives the same representation, whichever other documents are queried with it.", "quantifier": "every pair of query corpora sharing a document", "why_tests_cant": "relates two runs on different corpora", "anchors": ["sidetopics/model/sim_based_rec.py::query", "sidetopics/model/sim_based_rec.py::train"]}
{"id": "C122", "title": "Every link evaluation works with every link predictor", "statement": "The link evaluations can be run with each of the link predicting modules.", "quantifier": "every predictor and evaluation protocol", "why_tests_cant": "a product of modules and drivers, with missing functions and differing signatures", "anchors": ["sidetopics/run/__main__.py::link_split_prec_rec", "sidetopics/run/__main__.py::link_split_map", "sidetopics/run/__main__.py::insample_lro_style_prec_rec"]}
{"id": "C123", "title": "Training the relational model preserves mass", "statement": "After training, the vocabulary parameters of all topics sum to the priors plus the word counts, the topic parameters of each document exceed the priors and sum to the priors plus the length of the document, and the intercept's parameter is the length of the document.", "quantifier": "every corpus, initial state, digamma and link function, number of iterations and early stop", "why_tests_cant": "an invariant over all sweeps and real inputs", "anchors": ["sidetopics/model/rtm.py::train", "sidetopics/model/rtm.py::_infer_topics_at_d"]}
{"id": "C124", "title": "The relational model can be queried", "statement": "Querying a trained model with new documents updates the topic parameters of these documents.", "quantifier": "every model and non-empty corpus", "why_tests_cant": "fails for every input, after partly converting the query state", "anchors": ["sidetopics/model/rtm.py::query"]}
{"id": "C125", "title": "The relational model accepts the documented topic priors", "statement": "Models can be made with a number or a vector of one value per topic as topic prior, and query states can be made for every model.", "quantifier": "every number of topics and prior", "why_tests_cant": "all priors; depends on the parameter checks of the NumPy version", "anchors": ["sidetopics/model/rtm.py::newModelAtRandom", "sidetopics/model/rtm.py::newQueryState"]}
{"id": "C126", "title": "Predictions of the relational model are symmetric", "statement": "A link that is predicted from one document to another is predicted in the other direction with the same probability, given undirected expected links.", "quantifier": "every model and symmetric link matrix", "why_tests_cant": "the thresholds are per row, so one direction may be kept and the other dropped", "anchors": ["sidetopics/model/rtm.py::link_probs"]}
{"id": "C127", "title": "Training the correlated topic model keeps its parameters proper", "statement": "After training, every topic is a distribution over words without zeros, the prior covariance is positive and diagonal, every document has positive variances none of which exceeds that of the prior, the bound coefficients lie in (0, 1/4], the weights are relative to the first topic, and documents without words keep the prior.", "quantifier": "every corpus with at least one word type, number of topics, positive vocabulary prior, initial state, covariance estimator, number of iterations, log frequency and early stop", "why_tests_cant": "an invariant over all iterations and real inputs", "anchors": ["sidetopics/model/ctm.py::train"]}
{"id": "C128", "title": "Updates of the topics hand out every token once", "statement": "Each update of the topics sets a word's probability proportional to its expected count plus the prior, the expected counts of a word over the topics sum to its number of occurrences, and every topic is a distribution without zeros afterwards.", "quantifier": "every corpus, topic weights, topics and positive prior", "why_tests_cant": "all real-valued tables; conservation is an identity, not an example", "anchors": ["sidetopics/model/ctm.py::train", "sidetopics/model/ctm_bohning.py::train"]}
{"id": "C129", "title": "Topic counts of a document sum to its length", "statement": "The expected numbers of tokens per topic of a document are the sums of the posterior probabilities of its tokens, are not negative and sum to the length of the document.", "quantifier": "every corpus, topic weights and topics", "why_tests_cant": "all real-valued tables", "anchors": ["sidetopics/model/ctm.py::train", "sidetopics/model/ctm_bohning.py::train", "sidetopics/model/ctm_bohning.py::query"]}
{"id": "C130", "title": "Updates of the topics never lower the penalised likelihood", "statement": "The log-likelihood of the corpus plus the log-prior of the topics is never lower after an update of the topics than before.", "quantifier": "every corpus, topic weights, topics and positive prior", "why_tests_cant": "an inequality over all real-valued tables", "anchors": ["sidetopics/model/ctm.py::train", "sidetopics/model/ctm_bohning.py::train"]}
{"id": "C131", "title": "The reported log-likelihood is that of the corpus", "statement": "In every state whose topics are distributions the words of each document have probabilities that sum to one, the reported log-likelihood is not positive, and it is the logarithm of the probability of the corpus unless a word is less likely than the smallest positive number.", "quantifier": "every corpus, topic weights and topics", "why_tests_cant": "all real-valued tables", "anchors": ["sidetopics/model/ctm.py::log_likelihood", "sidetopics/model/ctm_bohning.py::log_likelihood"]}
{"id": "C132", "title": "Random initial topics are distributions", "statement": "Initialisation ends for every corpus, and every initial topic is a distribution without zeros.", "quantifier": "every corpus and sequence of random documents", "why_tests_cant": "termination over all random draws", "anchors": ["sidetopics/model/ctm.py::newModelAtRandom", "sidetopics/model/ctm_bohning.py::newModelAtRandom"]}
{"id": "C133", "title": "The coefficient of the logistic bound is right", "statement": "negJakkola is positive, at most 1/8, even and decreasing in the size of its argument, and gives an upper bound of log(1 + exp x) that is tight at plus and minus the expansion point.", "quantifier": "every non-zero expansion point and every argument", "why_tests_cant": "an inequality between transcendental functions on all reals", "anchors": ["sidetopics/model/ctm.py::negJakkola"]}
{"id": "C134", "title": "The reported bound never exceeds what it bounds", "statement": "The terms of the variational bound that stand for the expected log-sum-exp of the topic weights are never above it, whatever the distribution with the given means and variances.", "quantifier": "every distribution of topic weights with the given moments, every parameter of the bound, after every training iteration", "why_tests_cant": "quantifies over all distributions", "anchors": ["sidetopics/model/ctm.py::var_bound", "sidetopics/model/ctm.py::train", "sidetopics/model/stm_yv.py::var_bound"]}
{"id": "C135", "title": "The coefficient of the bound does not depend on how it is asked for", "statement": "negJakkolaOfDerivedXi and jakkolaOfDerivedXi give the same value for a document whether called for all documents or for one.", "quantifier": "all means, variances and documents", "why_tests_cant": "all real inputs", "anchors": ["sidetopics/model/ctm.py::negJakkolaOfDerivedXi", "sidetopics/model/ctm.py::jakkolaOfDerivedXi"]}
{"id": "C136", "title": "Every number of iterations and log frequency can be trained", "statement": "Training completes for every number of iterations and log frequency, zero meaning no log.", "quantifier": "every number of iterations, integer log frequency, corpus and state", "why_tests_cant": "depends on the divisibility of two parameters and on early stops", "anchors": ["sidetopics/model/ctm.py::train", "sidetopics/model/stm_yv.py::train", "sidetopics/model/stm_uv_vecy_bohning.py::train"]}
{"id": "C137", "title": "Metrics of an early stop describe the model returned", "statement": "When training stops early the metrics have equal lengths and end with the measurement of the model returned.", "quantifier": "every run that stops early", "why_tests_cant": "all runs", "anchors": ["sidetopics/model/ctm.py::train", "sidetopics/util/misc.py::clamp", "sidetopics/model/stm_yv.py::train"]}
{"id": "C138", "title": "Topic distributions of the B\u00f6hning model are available", "statement": "topicDists returns the topic distributions of the documents of a query.", "quantifier": "every query state", "why_tests_cant": "fails for every input", "anchors": ["sidetopics/model/ctm_bohning.py::topicDists"]}
{"id": "C139", "title": "Queries of the B\u00f6hning model return the weights they computed", "statement": "A query returns the topic weights of its last iteration, which depend on the words, and their variances.", "quantifier": "every model, corpus, number of iterations and mode", "why_tests_cant": "depends on which array is overwritten in place, for all inputs", "anchors": ["sidetopics/model/ctm_bohning.py::query"]}
{"id": "C140", "title": "Correlated topic models learn correlations", "statement": "The covariance of the topic weights of a trained model has entries off the diagonal when topics occur together.", "quantifier": "every corpus, model and number of iterations", "why_tests_cant": "a negative for all corpora", "anchors": ["sidetopics/model/ctm.py::train", "sidetopics/model/ctm_bohning.py::train"]}
{"id": "C141", "title": "The curvature matrix bounds the log-sum-exp", "statement": "The matrix A dominates the curvature of log-sum-exp at every point, so that the quadratic expansion with A is nowhere below it.", "quantifier": "every number of topics and every pair of points", "why_tests_cant": "an inequality on all real vectors of all dimensions", "anchors": ["sidetopics/model/ctm_bohning.py::newModelAtRandom"]}
{"id": "C142", "title": "Accurate inference never gets worse", "statement": "In the accurate mode no iteration of a query lowers the posterior density of the topic weights of any document, and no iteration of training lowers the penalised likelihood plus the log-density of the weights.", "quantifier": "every corpus, model, state and number of iterations", "why_tests_cant": "an inequality along all runs and real inputs", "anchors": ["sidetopics/model/ctm_bohning.py::query", "sidetopics/model/ctm_bohning.py::train"]}
{"id": "C143", "title": "Sorting documents by length leaves the trained model unchanged", "statement": "Training gives every document the topic weights and variances, and the model the topics, covariance and feature weights, that it would have without sorting the documents by length and treating equal lengths together.", "quantifier": "every corpus, features, initial state and number of iterations", "why_tests_cant": "a refinement between two programs over all corpora and runs", "anchors": ["sidetopics/model/stm_uv_vecy_bohning.py::train"]}
{"id": "C144", "title": "Returned exponentials belong to their documents", "statement": "Row d of the expMeans returned by training belongs to document d.", "quantifier": "every corpus and number of iterations", "why_tests_cant": "depends on the order of lengths in the corpus", "anchors": ["sidetopics/model/stm_uv_vecy_bohning.py::train", "sidetopics/model/stm_yv_bohning.py::train"]}
{"id": "C145", "title": "Words are paired with the topic weights of their own document", "statement": "Every update of the topics combines the words of a document with the topic weights of that document.", "quantifier": "every corpus, initial state and number of iterations", "why_tests_cant": "a coupling of two permutations over all corpora", "anchors": ["sidetopics/model/stm_yv_bohning.py::train"]}
{"id": "C146", "title": "Topic updates share out every word once", "statement": "In an update of the topics the expected counts of a word over the topics add up to its count in the corpus.", "quantifier": "every corpus, topics and topic weights", "why_tests_cant": "a conservation law over all real inputs", "anchors": ["sidetopics/model/stm_uv_vecy_bohning.py::train", "sidetopics/model/stm_yv_bohning.py::train"]}
{"id": "C147", "title": "Length groups partition the documents", "statement": "After sorting, each document belongs to exactly one group of equal lengths, that of its length.", "quantifier": "every corpus", "why_tests_cant": "all multisets of lengths", "anchors": ["sidetopics/model/stm_uv_vecy_bohning.py::train", "sidetopics/model/stm_yv_bohning.py::train", "sidetopics/model/stm_yv_bohning_fake_online.py::train"]}
{"id": "C148", "title": "Rescaling the covariance cancels out", "statement": "The variances and linear systems that training computes with the unscaled covariance are those of the scaled covariance that the model stores.", "quantifier": "every corpus, covariance and document length", "why_tests_cant": "an identity of matrix inverses over all dimensions", "anchors": ["sidetopics/model/stm_uv_vecy_bohning.py::train", "sidetopics/model/stm_yv_bohning.py::train"]}
{"id": "C149", "title": "Queries with features never get worse", "statement": "No iteration of a query lowers the posterior density of the topic weights of any document given its words and features; keeping inverses by length has no effect.", "quantifier": "every corpus, features, model, state and number of iterations", "why_tests_cant": "an inequality along all runs and real inputs", "anchors": ["sidetopics/model/stm_uv_vecy_bohning.py::query", "sidetopics/model/stm_yv_bohning.py::query", "sidetopics/model/stm_yv_bohning_fake_online.py::query"]}
{"id": "C150", "title": "Queries observe the limit on iterations", "statement": "A query performs at most the number of iterations in its plan, and fewer only after at least 22.", "quantifier": "every plan, corpus and model", "why_tests_cant": "all numbers of iterations and all perplexities", "anchors": ["sidetopics/model/stm_yv_bohning.py::query", "sidetopics/model/stm_uv_vecy_bohning.py::query", "sidetopics/model/stm_yv_bohning_fake_online.py::query"]}
{"id": "C151", "title": "Feature weights solve their regression exactly", "statement": "The updates of A, Y and V minimise their penalised squared errors, over all alternatives.", "quantifier": "every corpus, features, state and alternative weights", "why_tests_cant": "optimality against all real matrices", "anchors": ["sidetopics/model/stm_uv_vecy_bohning.py::train", "sidetopics/model/stm_yv.py::train"]}
{"id": "C152", "title": "The logged bound is the bound of the model", "statement": "The bound logged during training equals what var_bound computes for the same state on its own.", "quantifier": "every state, dense and sparse features", "why_tests_cant": "an array shared under two names changes a real formula", "anchors": ["sidetopics/model/stm_yv_bohning.py::train", "sidetopics/model/stm_yv_bohning.py::var_bound", "sidetopics/model/stm_yv.py::train"]}
{"id": "C153", "title": "Feature model logs stay in step", "statement": "The three lists returned by training have equal length, one entry per multiple of the log frequency, with the values measured after that iteration; training performs the planned iterations or at least 22.", "quantifier": "every plan, step, bound and likelihood", "why_tests_cant": "all runs including all ways of stopping early", "anchors": ["sidetopics/model/stm_yv_bohning.py::train"]}
{"id": "C154", "title": "Zero iterations and debug runs succeed", "statement": "Training for zero iterations returns the initial model, and setting the debug flag does not make training fail.", "quantifier": "every model, corpus and plan", "why_tests_cant": "a negative for all inputs", "anchors": ["sidetopics/model/stm_yv_bohning.py::train", "sidetopics/model/stm_yv.py::_debug_with_bound"]}
{"id": "C155", "title": "Training in batches agrees with training at once", "statement": "Processing lengths one batch at a time gives the topic weights of the update on the whole corpus.", "quantifier": "every corpus of at most one batch, model and state", "why_tests_cant": "depends on the multiset of lengths and on left-over buffer rows", "anchors": ["sidetopics/model/stm_yv_bohning_fake_online.py::train"]}
{"id": "C156", "title": "Dense and sparse features are accepted alike", "statement": "Models with features can be trained with a dense feature matrix.", "quantifier": "every corpus and plan", "why_tests_cant": "a negative for all inputs", "anchors": ["sidetopics/model/stm_uv_vecy_bohning.py::train", "sidetopics/model/stm_yv_bohning_fake_online.py::train"]}
{"id": "C157", "title": "A corpus may have a single document", "statement": "States can be created, trained and queried for any positive number of documents, and every document is weighted by its length.", "quantifier": "every number of documents and lengths", "why_tests_cant": "a shape that depends on the number of documents, for all contents", "anchors": ["sidetopics/model/lda_vb_python.py::newQueryState", "sidetopics/model/mom_gibbs.py::newQueryState", "sidetopics/model/rtm.py::newQueryState", "sidetopics/model/ctm.py::query", "sidetopics/model/ctm_bohning.py::query", "sidetopics/model/stm_yv_bohning.py::query", "sidetopics/model/lda_gibbs.py::query"]}
{"id": "C158", "title": "Measuring the bound leaves the topic weights alone", "statement": "var_bound does not change the topic weights of the state it measures.", "quantifier": "every state", "why_tests_cant": "in-place floating point arithmetic on all real inputs", "anchors": ["sidetopics/model/stm_yv.py::var_bound"]}
{"id": "C159", "title": "The stored covariance is the best covariance", "statement": "Given the other parameters and the topic weights with their variances, no positive definite covariance matrix gives a higher density to topic weights, feature weights and latent features than the one training stores.", "quantifier": "every corpus, features, state and every alternative positive definite matrix", "why_tests_cant": "optimality over all positive definite matrices", "anchors": ["sidetopics/model/stm_uv_vecy_bohning.py::train"]}
{"id": "C160", "title": "Every training iteration improves on the one before", "statement": "In every iteration of training with features the covariance is the best for the previous state, the new topics fit the corpus no worse than the old ones, and the new topic weights of no document fit its words and features worse than its old ones.", "quantifier": "every corpus, features, good initial state and iteration", "why_tests_cant": "an invariant and inequalities over unbounded iterations in exact arithmetic", "anchors": ["sidetopics/model/stm_uv_vecy_bohning.py::train"]}
{"id": "C161", "title": "Training learns the latent features", "statement": "Training fits the latent features and their weights to the feature weights.", "quantifier": "every corpus, features, state and number of iterations", "why_tests_cant": "a negative for all corpora and runs", "anchors": ["sidetopics/model/stm_yv_bohning.py::train", "sidetopics/model/stm_uv_vecy_bohning.py::train"]}
{"id": "C162", "title": "Variances of topic weights are the best ones for the bound", "statement": "The variances that training and queries compute maximise the bound with which the topic weights are computed.", "quantifier": "every corpus, model, document and topic", "why_tests_cant": "optimality over all positive numbers, for every number of topics", "anchors": ["sidetopics/model/stm_uv_vecy_bohning.py::query", "sidetopics/model/stm_uv_vecy_bohning.py::train", "sidetopics/model/stm_yv_bohning.py::query"]}
{"id": "C163", "title": "Querying a matrix topic model leaves it alone", "statement": "A query returns the model it was given, with the same topics and covariance.", "quantifier": "every corpus, model, state and number of iterations", "why_tests_cant": "no sample of queries shows that none writes to the model", "anchors": ["sidetopics/model/mtm.py::query", "sidetopics/model/mtm3.py::query"]}
{"id": "C164", "title": "Training a copy of a matrix topic model leaves the original alone", "statement": "After copying a model, training the copy changes no array of the original.", "quantifier": "every model and result of training", "why_tests_cant": "aliasing between copies shows only when the right arrays are compared after the right calls", "anchors": ["sidetopics/model/mtm.py::newModelFromExisting", "sidetopics/model/mtm2.py::newModelFromExisting", "sidetopics/model/mtm3.py::newModelFromExisting"]}
{"id": "C165", "title": "Word counts of a matrix topic model are conserved", "statement": "After training, the parameters of a word over all topics sum to the number of its occurrences and the prior of each topic.", "quantifier": "every corpus, links, state, digamma function and number of iterations", "why_tests_cant": "an invariant over unbounded iterations", "anchors": ["sidetopics/model/mtm.py::train", "sidetopics/model/mtm.py::_infer_word_topics_at_d"]}
{"id": "C166", "title": "Running sums of topic weights agree with the weights", "statement": "The sums of the weights of each topic, which are kept up to date document by document, are the sums of the current weights.", "quantifier": "every corpus, state and number of iterations", "why_tests_cant": "an invariant over every document of every iteration", "anchors": ["sidetopics/model/mtm.py::train"]}
{"id": "C167", "title": "The topic covariance of a matrix topic model is symmetric", "statement": "After every iteration the covariance of the topics is a symmetric matrix.", "quantifier": "every corpus, state and iteration", "why_tests_cant": "a property of a matrix computed by unbounded iteration", "anchors": ["sidetopics/model/mtm.py::train"]}
{"id": "C168", "title": "The shares of documents in a topic sum to one", "statement": "In every update the expected shares of the documents in the links due to a topic sum to one.", "quantifier": "every corpus, state and iteration", "why_tests_cant": "the numbers are never returned, and rounding hides or mimics the error", "anchors": ["sidetopics/model/mtm.py::train"]}
{"id": "C169", "title": "Topics of links follow the current weights", "statement": "The topic probabilities of a link are the posterior probabilities given the current topic weights of both documents.", "quantifier": "every state, link and topic", "why_tests_cant": "equality of distributions over all real weights", "anchors": ["sidetopics/model/mtm.py::_infer_link_topics_at_d", "sidetopics/model/mtm.py::train"]}
{"id": "C170", "title": "Emission counts count words and outgoing links", "statement": "The emission count of a document is the number of its words and its outgoing links.", "quantifier": "every corpus and link matrix", "why_tests_cant": "symmetric link matrices, which most samples use, hide the difference", "anchors": ["sidetopics/model/mtm.py::newQueryState"]}
{"id": "C171", "title": "Link distributions are distributions over documents", "statement": "For every topic, the link distribution is a distribution over the documents.", "quantifier": "every query state", "why_tests_cant": "for all real weights", "anchors": ["sidetopics/model/mtm.py::linkDists"]}
{"id": "C172", "title": "Results of a matrix topic model can be read", "statement": "Topic distributions and link predictions of a trained model can be obtained.", "quantifier": "every model and state of the three modules", "why_tests_cant": "absence of a field fails for all states alike, which a test of one module does not show", "anchors": ["sidetopics/model/mtm.py::link_probs", "sidetopics/model/mtm2.py::topicDists", "sidetopics/model/mtm3.py::topicDists"]}
{"id": "C173", "title": "Links predicted by words and documents are complete", "statement": "Every expected link is predicted with its probability, nothing less likely than the least likely expected link is kept up to rounding, documents without expected links keep all, and the probabilities of all targets sum to one.", "quantifier": "every state, set of expected links and subset of documents", "why_tests_cant": "for all real weights and all sets of links", "anchors": ["sidetopics/model/mtm2.py::min_link_probs", "sidetopics/model/mtm2.py::link_probs", "sidetopics/model/mtm3.py::min_link_probs", "sidetopics/model/mtm3.py::link_probs"]}
{"id": "C174", "title": "The second matrix topic model can be trained with every plan", "statement": "Training completes any number of iterations and never inverts a singular matrix.", "quantifier": "every corpus, links, state, plan and number of iterations", "why_tests_cant": "invertibility of every matrix in unbounded iterations", "anchors": ["sidetopics/model/mtm2.py::train"]}
{"id": "C175", "title": "Queries of the second matrix topic model infer topic weights", "statement": "A query returns topic weights that are at least as probable given the words as those it started with, and their variances.", "quantifier": "every corpus, model, state, variant and number of iterations", "why_tests_cant": "monotonicity over all real inputs and unbounded iterations", "anchors": ["sidetopics/model/mtm2.py::query"]}
{"id": "C176", "title": "Training the third matrix topic model uses the covariances given", "statement": "Training uses the covariance of out-weights of the model and those of in-weights of the state, so that it can be continued.", "quantifier": "every corpus, model, state and number of iterations", "why_tests_cant": "independence of an argument for all its values", "anchors": ["sidetopics/model/mtm3.py::train"]}
{"id": "C177", "title": "Training the third matrix topic model stays well-defined", "statement": "In every iteration all matrices that are inverted are positive definite, the variances and covariances of documents positive, and the topics distributions.", "quantifier": "every corpus, links, initial state and number of iterations", "why_tests_cant": "an invariant over unbounded iterations in exact arithmetic", "anchors": ["sidetopics/model/mtm3.py::train"]}
{"id": "C178", "title": "Topic counts of links are expected counts", "statement": "The topic counts of a document's links into and out of it are their expected numbers under the model, and sum to the numbers of links.", "quantifier": "every link matrix and weights", "why_tests_cant": "identities over all real weights", "anchors": ["sidetopics/model/mtm2.py::train", "sidetopics/model/mtm3.py::train"]}
{"id": "C179", "title": "Weights that emit words and links improve in every iteration", "statement": "No iteration of training lowers the posterior density of the out-weights of any document given its words, links and in-weights; no iteration of a query does for a document without out-links.", "quantifier": "every corpus, links, good initial state, iteration and document", "why_tests_cant": "inequality over all real inputs and unbounded iterations", "anchors": ["sidetopics/model/mtm3.py::train", "sidetopics/model/mtm3.py::query"]}
{"id": "C180", "title": "Optimal weights that attract links are kept", "statement": "If the weights with which documents attract links are optimal, the next iteration leaves them as they are.", "quantifier": "every corpus, links and state", "why_tests_cant": "a fixed point equation over all real weights", "anchors": ["sidetopics/model/mtm3.py::train", "sidetopics/model/mtm2.py::train"]}
{"id": "C181", "title": "Updates of topic vocabularies of matrix topic models never hurt", "statement": "The update of the topics never lowers the likelihood of the words with the prior, and yields distributions without zeros.", "quantifier": "every corpus, links and state with proper topics", "why_tests_cant": "inequality over all real inputs", "anchors": ["sidetopics/model/mtm2.py::train", "sidetopics/model/mtm3.py::train"]}
{"id": "C182", "title": "The offset model's scale minimises the link error", "statement": "Each iteration of training the latent random offset model sets the scale to the one value that minimises the weighted squared error of the predicted links between different documents, given the current offsets.", "quantifier": "every corpus, topics, weights and offsets", "why_tests_cant": "a least squares optimum over all real scales; a test can only compare a few candidates", "anchors": ["sidetopics/model/lro_vb.py::train"]}
{"id": "C183", "title": "The offset model's offsets minimise the penalised link error", "statement": "Each iteration sets the offsets of a document to those that minimise the weighted squared error of the links to it plus the penalty for leaving its topics.", "quantifier": "every corpus, document, scale and noise", "why_tests_cant": "an optimum over all vectors of offsets", "anchors": ["sidetopics/model/lro_vb.py::train"]}
{"id": "C184", "title": "Offsets can always be computed", "statement": "With a positive noise and weights that are larger for links, the linear systems solved for the offsets are never singular.", "quantifier": "every corpus, topics and scale", "why_tests_cant": "nonsingularity for all inputs; random tests never hit a singular matrix by chance", "anchors": ["sidetopics/model/lro_vb.py::train"]}
{"id": "C185", "title": "Offset models train and query on any links", "statement": "Training and querying the offset model succeed whatever the links of the corpus; a query uses only the words.", "quantifier": "every corpus, including those without links", "why_tests_cant": "quantifies over link structures, and rests on when a division by zero reaches a checked library routine", "anchors": ["sidetopics/model/lro_vb.py::train", "sidetopics/model/lro_vb.py::query"]}
{"id": "C186", "title": "Offset models train with default settings", "statement": "A new offset model made with the default settings can be trained.", "quantifier": "every corpus and plan", "why_tests_cant": "rests on the interplay of defaults of two modules for every input", "anchors": ["sidetopics/model/lro_vb.py::newModelAtRandom", "sidetopics/model/lro_vb.py::train"]}
{"id": "C187", "title": "Mixture training never lowers the evidence bound", "statement": "A call of mom_em.train that returns gives topic and word parameters and responsibilities whose evidence lower bound (expected log joint plus entropies under the factorised Dirichlet/categorical posterior) is at least that of the state it started from, for every plan, early stop or not.", "quantifier": "all corpora, priors > 0, initial parameters > 0, initial responsibilities that are distributions, all plans", "why_tests_cant": "Monotonicity of the bound is a statement about all runs; a test sees the numbers of one run, and the library's own var_bound for this model raises.", "anchors": ["sidetopics/model/mom_em.py::train"]}
{"id": "C188", "title": "Mixture query finds the best topics", "statement": "The topic distributions returned by mom_em.query (one iteration or more) maximise the evidence bound for the given model over all possible topic distributions of the documents.", "quantifier": "all corpora, models, iteration counts, competing distributions", "why_tests_cant": "Optimality against all distributions cannot be sampled.", "anchors": ["sidetopics/model/mom_em.py::query"]}
{"id": "C189", "title": "The mixture's evidence bound is a lower bound", "statement": "For every state the bound that training raises is at most the logarithm of the probability of the corpus, where documents draw topics and words from urns that start with the priors.", "quantifier": "all corpora, priors > 0, parameters > 0, responsibilities", "why_tests_cant": "The evidence is a sum over K^D topic assignments.", "anchors": ["sidetopics/model/mom_em.py::train"]}
{"id": "C190", "title": "Batch variational LDA never lowers the evidence bound", "statement": "lda_vb_python.train with the batch algorithm succeeds for every number of iterations on a corpus without empty documents, and the evidence bound of the returned word and topic parameters (with the best topics of tokens) is at least that of the parameters given.", "quantifier": "all corpora without empty documents, priors > 0, parameters > 0, all iteration counts", "why_tests_cant": "Monotonicity over all runs and all states; tests observe single runs with floating point noise.", "anchors": ["sidetopics/model/lda_vb_python.py::train", "sidetopics/model/lda_vb_python.py::_update_topics_at_d"]}
{"id": "C191", "title": "var_bound of LDA reports the evidence bound", "statement": "The value of lda_vb_python.var_bound never exceeds the evidence bound of the parameters and is below it by at most 1E-300 per token and topic (the safe logarithm); hence batch training never lowers the value reported by more than that.", "quantifier": "all corpora without empty documents, all parameters", "why_tests_cant": "Needs the identity of the formula with the definition of the bound for all parameters.", "anchors": ["sidetopics/model/lda_vb_python.py::var_bound", "sidetopics/model/lda_vb_python.py::_dirichletEntropy"]}
{"id": "C192", "title": "The bound of LDA is a lower bound of the evidence", "statement": "The value of lda_vb_python.var_bound never exceeds the logarithm of the probability of the corpus under LDA with the given priors.", "quantifier": "all corpora without empty documents, priors > 0, parameters > 0", "why_tests_cant": "The evidence is a sum over K^N topic assignments.", "anchors": ["sidetopics/model/lda_vb_python.py::var_bound"]}
{"id": "C193", "title": "The fast correlated topic model computes what the ordinary one does", "statement": "For the same data, model, state and plan, ctm_bohning_fast.train ends with the same model and query state as ctm_bohning.train.", "quantifier": "all corpora, models, states, plans", "why_tests_cant": "Tests run square toy problems or the diagonal approximation only; the agreement is a claim about all shapes.", "anchors": ["sidetopics/model/ctm_bohning_fast.py::train", "sidetopics/model/ctm_bohning.py::train"]}
{"id": "C194", "title": "A self-linked LDA model can be initialised, trained and queried", "statement": "newModelAtRandom of self_lda_vb_python accepts a scalar or a K-vector as prior; newQueryState makes a state for the model; train and query return the updated model and state.", "quantifier": "all corpora, priors, numbers of topics, plans", "why_tests_cant": "Claims about every prior and plan; failures depend on none of the data.", "anchors": ["sidetopics/model/self_lda_vb_python.py::newModelAtRandom", "sidetopics/model/self_lda_vb_python.py::newQueryState", "sidetopics/model/self_lda_vb_python.py::train", "sidetopics/model/self_lda_vb_python.py::query"]}
{"id": "C195", "title": "Topics of self-linked LDA are distributions over the ordinary topics", "statement": "topicDists of self_lda_vb_python yields for every document positive numbers that sum to one, and ignores the column which belongs to the document itself.", "quantifier": "all states with positive parameters", "why_tests_cant": "Holds for all tables.", "anchors": ["sidetopics/model/self_lda_vb_python.py::topicDists"]}
{"id": "C196", "title": "The topic model with vectorised latent features can be trained", "statement": "train of stm_uv_vec_y_bohning returns a model and a query state, which query and topicDists accept.", "quantifier": "all data, models, plans", "why_tests_cant": "Tests cannot exclude that some plan works.", "anchors": ["sidetopics/model/stm_uv_vec_y_bohning.py::train", "sidetopics/model/stm_uv_vec_y_bohning.py::unvec", "sidetopics/model/stm_uv_vec_y_bohning.py::query", "sidetopics/model/stm_uv_vec_y_bohning.py::topicDists"]}
{"id": "C197", "title": "Dirichlet parameters are estimated by exact Newton steps", "statement": "Every round of estimate_dirichlet_param subtracts the inverse of the matrix of second derivatives of the Dirichlet log likelihood times its gradient; a parameter is left unchanged exactly when the gradient vanishes, and then it maximises the likelihood.", "quantifier": "all numbers of samples, dimensions, samples, positive parameters at which the second derivatives are invertible", "why_tests_cant": "The structured inversion must be right for all dimensions; optimality is against all parameters.", "anchors": ["sidetopics/model/stm_uv_vec_y_bohning.py::estimate_dirichlet_param"]}
{"id": "C198", "title": "Every topic is chosen by its fair share of the random numbers", "statement": "When the Gibbs sampler chooses a topic for a token, the number of values of rand() that lead to a topic is RAND_MAX times the topic's weight over the sum of the weights, up to less than one; a draw between zero and the sum of the weights chooses the topic in whose interval it lies, and the tables that follow are those in which the token has that topic.", "quantifier": "for all numbers of topics, non-negative weights with a positive sum, and draws", "why_tests_cant": "A test would have to try all two thousand million random numbers for every vector of weights.", "anchors": ["sidetopics/model/lda_gibbs_fast.pyx:221-249"]}
{"id": "C199", "title": "The sampler's chances are the conditional probabilities of LDA", "statement": "For tables that count the assignments, the chance with which the sampler gives a token a topic is the probability of that topic given all words and the topics of all other tokens under latent Dirichlet allocation with the distributions integrated out.", "quantifier": "for all corpora, positive priors, assignments, tokens and topics", "why_tests_cant": "The joint probability is a product of rising factorials over a whole corpus; a test compares a few corpora only.", "anchors": ["sidetopics/model/lda_gibbs_fast.pyx:221-249"]}
{"id": "C200", "title": "Sweeps keep the posterior", "statement": "If the topics of all tokens are drawn from the posterior, they are still distributed like the posterior after any number of sweeps, whatever the starting points in the documents: the expected value of every function of the tables is unchanged.", "quantifier": "for all corpora, positive priors, lists of starting points and functions of the tables", "why_tests_cant": "Exact invariance of a distribution over all assignments can not be observed in samples.", "anchors": ["sidetopics/model/lda_gibbs_fast.pyx:210-252"]}
{"id": "C201", "title": "The sampler converges to the posterior from every start", "statement": "From every assignment the expected value of every bounded function of the tables approaches its posterior mean, the distance shrinking by a constant factor in every sweep, whatever the starting points in the documents.", "quantifier": "for all corpora, positive priors, starting assignments, lists of starting points and functions of the tables", "why_tests_cant": "Convergence is a statement about unboundedly many sweeps and all starts.", "anchors": ["sidetopics/model/lda_gibbs_fast.pyx:210-252"]}
{"id": "C202", "title": "Training estimates are posterior means", "statement": "Averaged over all random numbers, the topic distributions of the documents and the word distributions of the topics that Gibbs training returns are the posterior means, up to an error that shrinks geometrically with the length of the burn-in and a term of the order of tokens times topics over RAND_MAX.", "quantifier": "for all corpora, positive priors, plans that take at least one sample, starting assignments and starting points", "why_tests_cant": "The average runs over all sequences of random numbers of a whole run.", "anchors": ["sidetopics/model/lda_gibbs.py:183-221", "sidetopics/model/lda_gibbs_fast.pyx:159-290"]}
{"id": "C203", "title": "Query estimates are posterior means under the model's words", "statement": "Averaged over all random numbers, the topic distributions that a query returns approach the posterior means of the documents' topics for the word distributions of the model, whatever random assignment the query starts from.", "quantifier": "for all corpora, models, plans that take at least one sample, starting assignments and starting points", "why_tests_cant": "The average runs over all sequences of random numbers of a whole run.", "anchors": ["sidetopics/model/lda_gibbs.py:224-257", "sidetopics/model/lda_gibbs_fast.pyx:159-290"]}
{"id": "C204", "title": "The mixture sampler draws topics from their conditional probabilities", "statement": "Given the words of the topics and the topics of the other documents, the topic of a document is drawn with its conditional probability in the mixture whose topic proportions have the Dirichlet prior given.", "quantifier": "every corpus, prior above one, words and topics of the other documents", "why_tests_cant": "a statement about exact probabilities, for all states", "anchors": ["sidetopics/model/mom_gibbs.py::sample_memberships"]}
{"id": "C205", "title": "Expected answers of a mixture query are posterior probabilities", "statement": "Averaged over the random draws, the topics returned by a query of the sampled mixture approach the posterior probabilities of the documents' topics as the burn-in grows.", "quantifier": "every corpus, model, prior above one, plan and start", "why_tests_cant": "a limit over all runs of a random algorithm", "anchors": ["sidetopics/model/mom_gibbs.py::query", "sidetopics/model/mom_gibbs.py::sample_memberships"]}
{"id": "C206", "title": "Regression weights are fitted with the exact gradient", "statement": "The gradient given to the optimiser is the gradient of the objective it is given, for every number of documents, batches and samples.", "quantifier": "every corpus, features, samples, weights and direction", "why_tests_cant": "finite differences are approximate and only at the weights tried", "anchors": ["sidetopics/model/dmr.py::gradient", "sidetopics/model/dmr.py::objective"]}
{"id": "C207", "title": "The objective of the regression is the posterior of the weights", "statement": "Lowering the objective of a topic raises the log-posterior of all weights given the samples by the same amount.", "quantifier": "every corpus, features, samples and weights", "why_tests_cant": "equality of two functions on all real weights", "anchors": ["sidetopics/model/dmr.py::objective"]}
{"id": "C208", "title": "A weight update never lowers the posterior of the weights", "statement": "If the optimiser never returns weights that are worse for its objective, an update of the weights of all topics does not lower the posterior of the weights.", "quantifier": "every optimiser that never gets worse, corpus, samples and weights", "why_tests_cant": "depends on the optimiser and on all weights", "anchors": ["sidetopics/model/dmr.py::updateWeights", "sidetopics/model/dmr.py::train"]}
{"id": "C209", "title": "Feature-driven topic estimates are posterior means under the fitted priors", "statement": "Averaged over all random numbers, the topic estimates of training approach the posterior means under the priors for which the weights are fitted.", "quantifier": "every corpus, features, weights with positive priors, plan and start", "why_tests_cant": "a limit over all runs of a random algorithm", "anchors": ["sidetopics/model/dmr.py::train", "sidetopics/model/dmr.py::objective", "sidetopics/model/dmr_fast.pyx::sample"]}
{"id": "C210", "title": "The bound of the correlated topic model is below the evidence", "statement": "The value that var_bound of the correlated topic model returns, and that training logs, is at most the logarithm of the probability of the corpus under the model.", "quantifier": "every corpus, number of topics, model and variational parameters", "why_tests_cant": "the evidence is an integral over all topic weights of all documents and cannot be computed to compare", "anchors": ["sidetopics/model/ctm.py::var_bound", "sidetopics/model/ctm.py::train"]}
{"id": "C211", "title": "The bound of the Bohning topic model is below the evidence", "statement": "The value that var_bound of the Bohning variant returns is at most the logarithm of the probability of the corpus under the model.", "quantifier": "every corpus, number of topics, model and variational parameters", "why_tests_cant": "the evidence is an integral over all topic weights of all documents and cannot be computed to compare", "anchors": ["sidetopics/model/ctm_bohning.py::var_bound"]}
{"id": "C212", "title": "Queries of the correlated topic model return proper weights", "statement": "After a query of any number of iterations all variances are positive and at most those of the prior given the other topics, all coefficients lie between 0 and 1/4, and documents without words have exactly the weights and variances of the prior.", "quantifier": "every corpus, model with a positive definite covariance, number of iterations and start", "why_tests_cant": "all starts and numbers of iterations", "anchors": ["sidetopics/model/ctm.py::query"]}
{"id": "C213", "title": "Query steps set every parameter to its best value", "statement": "Each iteration of a query replaces the weights, the variances and the offset of each document by the values that are best for the bound on the evidence, given the others.", "quantifier": "every corpus, model, start and alternative values", "why_tests_cant": "comparison with all alternative values", "anchors": ["sidetopics/model/ctm.py::query"]}
{"id": "C214", "title": "Queries infer each document on its own", "statement": "The weights that a query infers for a document do not depend on the other documents of the query.", "quantifier": "every pair of corpora that share a document, model, start and number of iterations", "why_tests_cant": "all other documents", "anchors": ["sidetopics/model/ctm.py::query"]}
{"id": "C215", "title": "Element type options are read or refused", "statement": "The element type option is read as one or two names, each a letter of either case followed by a size in bytes or in bits; one name stands for both types, and any other text is refused with ValueError.", "quantifier": "every text given as the option", "why_tests_cant": "all texts", "anchors": ["sidetopics/run/__main__.py::parse_dtypes", "sidetopics/run/__main__.py::parse_dtype"]}
{"id": "C216", "title": "Feature masks are read as they were written", "statement": "A feature mask written as label:number pairs with commas between them is read back as the same labels and numbers in the same order; an entry without a number is refused.", "quantifier": "every non-empty list of labels free of commas and colons, and numbers", "why_tests_cant": "all masks", "anchors": ["sidetopics/run/__main__.py::parse_features_mask"]}
{"id": "C217", "title": "Saved models never overwrite each other", "statement": "Two models that are saved in the same directory get different files if they differ in kind, number of topics, number of latent features, fold or minute of training.", "quantifier": "every pair of models, directory and moment", "why_tests_cant": "all pairs of models and configurations", "anchors": ["sidetopics/run/__main__.py::newModelFile", "sidetopics/run/__main__.py::save_model"]}
{"id": "C218", "title": "Held-out hashtags are removed from the query", "statement": "In the hashtag evaluation the tags whose prediction is scored are removed from the documents that the model is shown, and the scores compare predictions to the removed tags.", "quantifier": "every corpus, list of hashtags, model and random draws", "why_tests_cant": "all corpora, models and random draws", "anchors": ["sidetopics/run/__main__.py::hashtag_prec_rec"]}
{"id": "C219", "title": "Hashtag precision and recall are proportions", "statement": "The precision and recall that the hashtag evaluation reports lie between 0 and 1, and recall is 1 when as many documents are returned as there are and some document has the tag.", "quantifier": "every ranking, held-out counts and cut-off", "why_tests_cant": "all rankings and counts", "anchors": ["sidetopics/run/__main__.py::hashtag_prec_rec"]}
{"id": "C220", "title": "Evaluation by features does not train on what it queries", "statement": "The out-of-sample evaluation has one round for each feature of the mask; each trains on the documents with none of the features left and queries those with the first one, no document is in both, and the training sets grow from round to round.", "quantifier": "every dataset with features that are zero or above 1e-30 and links, and every mask", "why_tests_cant": "all datasets and masks", "anchors": ["sidetopics/run/__main__.py::outsample_lro_style_prec_rec"]}
{"id": "C221", "title": "The command line program evaluates the model asked for", "statement": "Given readable options and files, the command line program trains and evaluates the model that was asked for.", "quantifier": "every set of options and files", "why_tests_cant": "all options and files; the failure depends on an interface of another module", "anchors": ["sidetopics/run/__main__.py::run"]}
{"id": "C222", "title": "Word lists hold each word as often as it was counted", "statement": "The list of words that the collapsed models make of a document holds each word exactly as often as the document counts it, and nothing else.", "quantifier": "every sparse matrix of counts, element type and random shuffle", "why_tests_cant": "all matrices and shuffles; the loss shows only on counts that are not whole", "anchors": ["sidetopics/model/lda_cvb0.py::toWordList", "sidetopics/model/lda_cvb.py::toWordList"]}
{"id": "C223", "title": "Topic counts of the collapsed models divide the counts of the corpus", "statement": "Throughout training the topic counts of a document add up, over topics, to the sum of the counts of the document, and the topic counts of a word to the number of times the word is in the corpus.", "quantifier": "every corpus of whole counts with two or more documents, every shuffle, every number of iterations", "why_tests_cant": "all corpora and iterations; the counts are changed in place token by token", "anchors": ["sidetopics/model/lda_cvb0.py::toWordList", "sidetopics/model/lda_cvb0.py::train", "sidetopics/model/lda_cvb.py::train"]}
{"id": "C224", "title": "The bound of the collapsed models never exceeds the evidence", "statement": "The number returned as bound by the collapsed models (zeroth and second order) is at most the logarithm of the probability of the corpus given the priors, after any number of iterations.", "quantifier": "every corpus, positive priors, initial topics and number of iterations", "why_tests_cant": "the evidence is a sum over all assignments of topics", "anchors": ["sidetopics/model/lda_cvb0.py::log_likelihood_expected", "sidetopics/model/lda_cvb.py::var_bound"]}
{"id": "C225", "title": "The bound of the collapsed models adds the entropy", "statement": "The bound of the collapsed models is the zeroth-order expectation of the log-probability of words and topics plus the entropy of the topics of the tokens.", "quantifier": "every state of the model", "why_tests_cant": "all states; a wrong sign still gives a lower bound", "anchors": ["sidetopics/model/lda_cvb0.py::log_likelihood_expected", "sidetopics/model/lda_cvb.py::var_bound"]}
{"id": "C226", "title": "Link weights of the relational model climb the regularised likelihood of the links", "statement": "Every step of the optimiser of the link weights goes along the gradient of the likelihood of the links minus the L2 regulariser of the strength given", "quantifier": "all corpora, links, topic distributions, weights, strengths and step sizes", "why_tests_cant": "A test sees single numbers, not that they are the gradient of a stated function at every point", "anchors": ["sidetopics/model/rtm.py::_infer_weights"]}
{"id": "C227", "title": "A stronger regulariser of the link weights gives smaller weights", "statement": "Whatever the data, raising the strength of the regularisation moves no link weight away from zero", "quantifier": "all corpora, weights and pairs of strengths", "why_tests_cant": "Comparing two settings on one corpus does not show the direction for all", "anchors": ["sidetopics/model/rtm.py::_infer_weights"]}
{"id": "C228", "title": "Invented negative examples lower the probability of links", "statement": "The more negative examples a relational model is told to invent, the lower the link probability of the invented example after a step", "quantifier": "all corpora, topic distributions, weights and pairs of numbers of examples", "why_tests_cant": "Inequality between two runs for all data", "anchors": ["sidetopics/model/rtm.py::_infer_weights"]}
{"id": "C229", "title": "Re-estimating the topic prior of the relational model raises the likelihood of the topic counts", "statement": "The update of the topic prior does not lower the probability of the (expected) topic counts of the documents under the prior", "quantifier": "all corpora of documents that are not empty, all topic distributions and priors", "why_tests_cant": "A test with one corpus cannot tell an estimate from a systematic shrinkage", "anchors": ["sidetopics/model/rtm.py::_updateTopicHyperParamsFromMeans"]}
{"id": "C230", "title": "Topic priors stay positive while the relational model is trained", "statement": "If the topic prior is positive when training begins, it is positive when training ends, for every number of iterations", "quantifier": "all corpora, links, initial states, numbers of iterations and settings", "why_tests_cant": "An invariant of an unbounded loop with numerical optimisation inside", "anchors": ["sidetopics/model/rtm.py::train", "sidetopics/model/rtm.py::_updateTopicHyperParamsFromMeans"]}
{"id": "C231", "title": "The bound of the relational model never exceeds the evidence", "statement": "The value of var_bound is at most the logarithm of the probability of the corpus and its links", "quantifier": "all corpora, links, priors, weights and positive parameters", "why_tests_cant": "The evidence is a sum over exponentially many assignments", "anchors": ["sidetopics/model/rtm.py::var_bound"]}
{"id": "C232", "title": "Links enter the topic update of the relational model by the gradient of their likelihood", "statement": "The score that the links of a document add to a topic is the partial derivative of the log-likelihood of all links in that entry of its topic distribution, per token", "quantifier": "all corpora, symmetric links without loops, weights and topic distributions", "why_tests_cant": "Finite differences at samples are no proof that a formula is a derivative", "anchors": ["sidetopics/model/rtm.py::_sum_of_scores_at_d"]}
{"id": "C233", "title": "The careful logarithms of one plus a number are accurate", "statement": "For every number above minus one the careful logarithm of one plus the number differs from the true one by at most 2E-11, and for every number at all the careful logarithm of one plus its exponential has a relative error of at most 2E-12.", "quantifier": "every real number", "why_tests_cant": "tests sample points; the rational approximation is used on an interval", "anchors": ["sidetopics/util/overflow_safe.py::safe_log_one_plus", "sidetopics/util/overflow_safe.py::_very_safe_log_one_plus_exp_of"]}
{"id": "C234", "title": "The entropy of a product of distributions is the entropy of its terms", "statement": "entropyOfDot returns the sum over documents, topics and words of minus z log z, where z is the product of the share of the topic in the document and the share of the word in the topic; for distributions this is the entropy of the topics plus the mean entropy of the words, and it is never negative.", "quantifier": "all matrices of topics and words with entries that are not negative, all element types", "why_tests_cant": "all matrices; zero entries and other element types are rare in tests", "anchors": ["sidetopics/util/sparse_elementwise.py::entropyOfDot", "sidetopics/util/sparse_elementwise.py::entropyOfDot_py"]}
{"id": "C235", "title": "The buffer given to a sparse kernel receives the result", "statement": "When a matrix is given as the argument out, the sparse kernels write the result into it and return it.", "quantifier": "every matrix, buffer of the same shape, element type and range of rows", "why_tests_cant": "all combinations of types, ranges and buffers", "anchors": ["sidetopics/util/sparse_elementwise.py::sparseScalarQuotientOfDot", "sidetopics/util/sparse_elementwise.py::sparseScalarProductOfSafeLnDot"]}
{"id": "C236", "title": "Sparse kernels accept whole numbers", "statement": "The sparse kernels return the product, quotient or logarithmic product for matrices of integer type.", "quantifier": "every sparse matrix of integers", "why_tests_cant": "the branch depends on the element types of three matrices", "anchors": ["sidetopics/util/sparse_elementwise.py::sparseScalarProductOfDot", "sidetopics/util/sparse_elementwise.py::sparseScalarQuotientOfDot", "sidetopics/util/sparse_elementwise.py::sparseScalarProductOfSafeLnDot"]}
{"id": "C237", "title": "Titles of results round trip", "statement": "Reading the title that an algorithm prints gives the same name, number of topics and description of training.", "quantifier": "every name, number of topics and description", "why_tests_cant": "all texts", "anchors": ["sidetopics/run/reshape_results.py::from_file_entry", "sidetopics/run/reshape_results.py::__str__"]}
{"id": "C238", "title": "Files of results are read completely", "statement": "Every entry of a file of results is read with its title, tables and scores, in the order of the file, whatever comments or blank lines separate entries.", "quantifier": "every list of well formed entries and separators", "why_tests_cant": "all files; whether entries are lost depends on the line after each", "anchors": ["sidetopics/run/reshape_results.py::read_all_results", "sidetopics/run/reshape_results.py::read_next_result_batch", "sidetopics/run/reshape_results.py::skip_to_non_empty_line"]}
{"id": "C239", "title": "A paper that cannot be read does not stop the others", "statement": "A file of metadata that is not a complete record is skipped, and all other papers are exported; a field is its key in lower case and its value with all continuation lines.", "quantifier": "every list of files and every content", "why_tests_cant": "all files; the kind of exception decides", "anchors": ["sidetopics/run/arxiv_to_aan.py::run_on_dirs", "sidetopics/run/arxiv_to_aan.py::read_paper_metadata", "sidetopics/run/arxiv_to_aan.py::read_next_key_value"]}
{"id": "C240", "title": "Names are converted with the family name first", "statement": "The family name, with its particle and its title, comes first, followed by a comma and all other words of the name in their order.", "quantifier": "every name of one or more words", "why_tests_cant": "all names", "anchors": ["sidetopics/run/arxiv_to_aan.py::bibtex_to_acl_author"]}
{"id": "C241", "title": "The exported authors are read back", "statement": "The line of authors that is exported is read by the script that numbers authors as exactly the converted names, with round instead of curly brackets.", "quantifier": "every list of one or more names without semicolons", "why_tests_cant": "all names; two scripts have to agree", "anchors": ["sidetopics/run/arxiv_to_aan.py::write_paper_metadata", "sidetopics/run/arxiv_author_ids.py::run"]}
{"id": "C242", "title": "Matrices in text files are converted exactly", "statement": "The matrix written has the numbers of the text file, row by row, or no file is written and an error is reported.", "quantifier": "every text file and number of rows", "why_tests_cant": "all files; the type depends on the first line only", "anchors": ["sidetopics/run/text_to_numpy.py::save_as_numpy", "sidetopics/run/text_to_numpy.py::save_as_numpy_sparse"]}
{"id": "C243", "title": "A copied model shares no array with the original", "statement": "Whatever is written into the arrays of the model that newModelFromExisting returns, every field of the original keeps its contents.", "quantifier": "every model of every module, every sequence of writes into the copy", "why_tests_cant": "all sequences of writes; which fields are copied differs per module", "anchors": ["sidetopics/model/ctm.py::newModelFromExisting", "sidetopics/model/mom_em.py::newModelFromExisting", "sidetopics/model/mom_gibbs.py::newModelFromExisting", "sidetopics/model/mtm.py::newModelFromExisting", "sidetopics/model/dmr.py::newModelFromExisting"]}
{"id": "C244", "title": "A copied model looks like the original", "statement": "newModelFromExisting returns a model all of whose fields have the contents of the original's.", "quantifier": "every model of every module", "why_tests_cant": "all states of seventeen modules", "anchors": ["sidetopics/model/lda_cvb.py::newModelFromExisting", "sidetopics/model/lda_gibbs.py::newModelFromExisting", "sidetopics/model/stm_yv.py::newModelFromExisting", "sidetopics/model/lda_vb.py::newModelFromExisting"]}
{"id": "C245", "title": "A fitted wrapper can be copied", "statement": "TopicModel.copy returns a second model with the same settings and state.", "quantifier": "every wrapper, fitted or not", "why_tests_cant": "holds for every state or for none", "anchors": ["sidetopics/model/sklearn/lda_cvb.py::TopicModel.copy"]}
{"id": "C246", "title": "Changing a copied dataset leaves the original alone", "statement": "After copying a dataset, shallow or deep, converting its element types or its links in place does not alter what the original holds.", "quantifier": "every dataset with or without links and features", "why_tests_cant": "all datasets; aliasing is only seen when both copies are used", "anchors": ["sidetopics/model/common.py::DataSet.copy", "sidetopics/model/common.py::DataSet.copy_with_changes", "sidetopics/model/common.py::DataSet.convert_to_binary_link_matrix", "sidetopics/model/common.py::DataSet.convert_to_undirected_graph", "sidetopics/model/common.py::DataSet.convert_to_dtypes"]}
{"id": "C247", "title": "The wrapped LDA can be made with every batch size", "statement": "WrappedSckitLda(batchSize=n) returns a model that learns online in batches of n documents, or from the whole corpus if n is zero.", "quantifier": "every batch size", "why_tests_cant": "holds for all sizes or fails for all; needs the signature of another library", "anchors": ["sidetopics/model/sklearn/lda_cvb.py::WrappedSckitLda.__init__"]}
{"id": "C248", "title": "Resuming applies to one call only", "statement": "After any sequence of calls of fit, with or without resume, failed or not, a fit without resume starts from new topics and so does not depend on what was fitted before; a fit with resume continues from the topics of the last.", "quantifier": "every sequence of calls, every estimation that may fail", "why_tests_cant": "all histories including failures", "anchors": ["sidetopics/model/sklearn/lda_cvb.py::WrappedSckitLda.fit", "sidetopics/model/sklearn/lda_cvb.py::WrappedSckitLda._init_latent_vars"]}
{"id": "C249", "title": "Scores of wrapped models are log-likelihoods of the words", "statement": "score returns the sum of each count times the logarithm of the probability of its word under the topics given, inferred, or given as a query state, or the perplexity of that sum; only the proportions of a topic's components matter.", "quantifier": "every corpus with any element type, all topics, components and methods", "why_tests_cant": "all matrices and element types", "anchors": ["sidetopics/model/sklearn/lda_cvb.py::WrappedSckitLda.score", "sidetopics/model/sklearn/lda_cvb.py::WrappedScikitHdp.score", "sidetopics/model/sklearn/lda_cvb.py::WrappedScikitHdp.components_"]}
{"id": "C250", "title": "Likelihoods of linked documents include the links", "statement": "log_likelihood of a model of linked documents is the sum over words and over links of the count times the logarithm of the probability of the word or of the target under the topics of the document.", "quantifier": "every corpus, every link matrix, all weights", "why_tests_cant": "all corpora and link matrices; wrong indices read arbitrary memory", "anchors": ["sidetopics/model/rtm.py::log_likelihood", "sidetopics/model/mtm.py::log_likelihood", "sidetopics/model/self_lda_vb_python.py::log_likelihood", "sidetopics/model/mtm2.py::log_likelihood", "sidetopics/model/mtm3.py::log_likelihood"]}
{"id": "C251", "title": "The point likelihood of mixtures is that of a mixture", "statement": "log_likelihood_point of the two mixtures is the sum over documents of the logarithm of the weighted sum over topics of the probability of the document's words.", "quantifier": "every corpus, all weights and topics", "why_tests_cant": "real logarithms and exponentials for all matrices", "anchors": ["sidetopics/model/mom_em.py::log_likelihood_point", "sidetopics/model/mom_gibbs.py::log_likelihood_point"]}
{"id": "C252", "title": "The bounds of matrix topic models never exceed the evidence", "statement": "var_bound of the matrix topic models is at most the logarithm of the probability of the corpus under the model.", "quantifier": "every corpus, every state reached by training", "why_tests_cant": "a statement about integrals over Gaussian vectors for all states", "anchors": ["sidetopics/model/mtm.py::var_bound", "sidetopics/model/mtm2.py::var_bound", "sidetopics/model/mtm3.py::var_bound"]}
{"id": "C253", "title": "Priors learnt while sampling never worsen the fit to the topics", "statement": "The topic priors that the Gibbs samplers re-estimate while they run fit the counts of topics of the documents at least as well as the ones before, and are numbers", "quantifier": "all corpora, counts of topics and priors", "why_tests_cant": "Fixed point updates have to be compared over all counts; the value depends on memory that is not initialised", "anchors": ["sidetopics/model/lda_gibbs_fast.pyx::infer_hyperparams", "sidetopics/model/dmr_fast.pyx::infer_hyperparams"]}
{"id": "C254", "title": "Querying a sampler leaves its topic prior alone", "statement": "Inferring the topics of new documents with a trained Gibbs sampler does not change the topic prior of the model", "quantifier": "all models, new documents and numbers of samples", "why_tests_cant": "The change happens in shared memory and depends on the documents of the query", "anchors": ["sidetopics/model/lda_gibbs_fast.pyx::sample", "sidetopics/model/lda_gibbs.py::query"]}
{"id": "C255", "title": "Topic priors may be numbers or vectors and every topic gets its own", "statement": "Every model over words takes a number or a vector as topic prior, and each topic is given the prior that was asked for", "quantifier": "all models, numbers of topics and priors", "why_tests_cant": "Infinitely many priors; an average instead of the entries is noticed only with unequal ones", "anchors": ["sidetopics/model/lda_cvb.py::train", "sidetopics/model/lda_cvb0.py::train", "sidetopics/model/lda_vb.py::newModelAtRandom"]}
{"id": "C256", "title": "Vocabulary priors may be numbers or vectors", "statement": "Every model over words takes a number or a vector as vocabulary prior, and each word is given the prior that was asked for", "quantifier": "all models, sizes of the vocabulary and priors", "why_tests_cant": "Infinitely many priors, and the failure appears in training only", "anchors": ["sidetopics/model/lda_gibbs.py::newModelAtRandom", "sidetopics/model/dmr.py::newModelAtRandom", "sidetopics/model/lda_cvb.py::train"]}
{"id": "C257", "title": "The invented negative examples are typical pairs of documents", "statement": "The example of unlinked documents that a relational model invents is the product of the topics of two documents as the prior describes them on average", "quantifier": "all numbers of topics and priors", "why_tests_cant": "Quantifies over all priors; a factor in the gradient is invisible in a run", "anchors": ["sidetopics/model/rtm.py::_infer_weights"]}
{"id": "C258", "title": "The vocabulary prior of the command line is the vocabulary prior of the model", "statement": "The value of the option for the prior of the vocabulary becomes the vocabulary prior of whichever model is trained", "quantifier": "all models", "why_tests_cant": "The effect of a misplaced argument is only a different result", "anchors": ["sidetopics/run/__main__.py::run"]}
{"id": "C259", "title": "The options for training reach the plan", "statement": "The options for the number of iterations, the log frequency, the smallest change of the bound and the learning rate are those of the plan that the model is trained with", "quantifier": "all models and values of the options", "why_tests_cant": "Options without effect are not visible in a test of one value", "anchors": ["sidetopics/run/__main__.py::run"]}
{"id": "C260", "title": "Debugging can be switched off", "statement": "Giving a text that says no as the value of the debug option switches debugging off", "quantifier": "all texts", "why_tests_cant": "Quantifies over all texts", "anchors": ["sidetopics/run/__main__.py::run"]}
{"id": "C261", "title": "A saved topic model is used only for the same documents in the same order", "statement": "Loading a saved topic model gives back the model as saved if it was trained on the same documents in the same order, and raises an error otherwise.", "quantifier": "every saved model and data set", "why_tests_cant": "all orders", "anchors": ["sidetopics/run/__main__.py::load_and_adapt_lda_model"]}
{"id": "C262", "title": "A topic model trained before is used in every evaluation of links", "statement": "A topic model trained before and passed to an evaluation of links is used by every recommender that can start from one, with the topics of its training documents.", "quantifier": "every evaluation, recommender and kind of topic model", "why_tests_cant": "all combinations", "anchors": ["sidetopics/run/__main__.py::link_split_prec_rec", "sidetopics/run/__main__.py::subsetLda", "sidetopics/model/mtm3.py::lda_vocab"]}
{"id": "C263", "title": "A matrix topic model started from a topic model starts at its topics", "statement": "The matrix topic model initialised from a topic model describes every document by the topics of that model, has positive variances and the mean of the scores as its mean.", "quantifier": "all topics and random numbers", "why_tests_cant": "all inputs", "anchors": ["sidetopics/model/mtm3.py::_newQueryStateFromLda"]}
{"id": "C264", "title": "A fresh query state is not marked as processed", "statement": "A new query state is not marked as processed, so that the recommender by similarity trains its topics.", "quantifier": "every implementation, debugging on or off", "why_tests_cant": "all settings", "anchors": ["sidetopics/model/lda_vb_python.py::newQueryState", "sidetopics/model/sim_based_rec.py::train"]}
{"id": "C265", "title": "The tolerance of the plan decides when training stops", "statement": "Training with a plan stops early according to the tolerance of the plan: a smaller tolerance never stops sooner, and a small enough one keeps training going while there is progress.", "quantifier": "every training loop, tolerance and history of measurements", "why_tests_cant": "all histories", "anchors": ["sidetopics/model/ctm.py::train", "sidetopics/model/lda_vb.py::train", "sidetopics/model/rtm.py::train", "sidetopics/model/mtm3.py::train"]}
{"id": "C266", "title": "Training stops early only after little change", "statement": "Training stops early only if the newest measurement differs little from the one before it.", "quantifier": "every training loop and history of measurements", "why_tests_cant": "all histories", "anchors": ["sidetopics/model/lda_cvb0.py::train", "sidetopics/model/stm_yv_bohning.py::train", "sidetopics/model/rtm.py::train", "sidetopics/util/misc.py::converged"]}
{"id": "C267", "title": "Training does not stop before a number of iterations", "statement": "Training stops early only after two measurements at least and at or after a number of iterations fixed for the model.", "quantifier": "every training loop, tolerance and history of measurements", "why_tests_cant": "all histories", "anchors": ["sidetopics/model/ctm_bohning.py::train", "sidetopics/model/mtm.py::train", "sidetopics/util/misc.py::converged"]}
{"id": "C268", "title": "The bound of the topic model with features is below the evidence", "statement": "var_bound of the topic models with features (side-topic models) is a lower bound of the logarithm of the probability of the documents under the model.", "quantifier": "all corpora, features, priors of the weights, models and query states", "why_tests_cant": "The evidence is an integral over all topic weights and all weights of the features; tests can only compare the bound with its own earlier values", "anchors": ["sidetopics/model/stm_yv_bohning.py::var_bound", "sidetopics/model/stm_yv.py::var_bound", "sidetopics/model/stm_yv_bohning_fake_online.py::var_bound", "sidetopics/model/stm_uv_vecy_bohning.py::var_bound"]}
{"id": "C269", "title": "Training with features keeps its parameters proper", "statement": "After any positive number of iterations of stm_yv.train: every topic is a distribution over the words without zeros, the covariance of the topic weights is diagonal with variances of at least 0.001, the variances of each document's weights are positive and no larger than those of the prior, the coefficients of the bound lie in (0, 1/4], the exponentials lie in (0, 1], and a document without words has exactly the weights its features predict and the variances of the prior.", "quantifier": "All corpora, features, numbers of topics and factors, positive priors, starting states and matrix inverses", "why_tests_cant": "Tests see a few corpora; a variance or a topic that degenerates after many iterations, or an empty document with odd weights, needs the particular data.", "anchors": ["sidetopics/model/stm_yv.py::train"]}
{"id": "C270", "title": "Queries with features return proper weights", "statement": "For a trained model (diagonal covariance with positive variances) stm_yv.query returns, after any positive number of iterations and from any starting weights with positive coefficients, variances that are positive and at most those of the prior, coefficients in (0, 1/8], and for documents without words exactly the weights their features predict.", "quantifier": "All corpora, features, models, starting states and numbers of iterations, and all perplexities that decide about the early stop", "why_tests_cant": "A test fixes one model and a few documents; it cannot show that no document ever gets a degenerate distribution.", "anchors": ["sidetopics/model/stm_yv.py::query", "sidetopics/model/stm_yv.py::newQueryState"]}
{"id": "C271", "title": "Query steps with features improve the bound as far as they can", "statement": "Each iteration of stm_yv.query replaces the weights, the variances and then the coefficients of every document by those with the highest value of the variational bound, the other quantities being fixed.", "quantifier": "All models, documents, features and query states", "why_tests_cant": "That no other value would be better is a statement about all real numbers; tests only see that the likelihood does not look bad.", "anchors": ["sidetopics/model/stm_yv.py::query", "sidetopics/model/ctm.py::_deriveXi"]}
{"id": "C272", "title": "Training steps with features set the weights of documents to their best values", "statement": "Each iteration of stm_yv.train replaces the weights, the variances and then the coefficients of every document by those with the highest value of the variational bound, the other quantities being fixed.", "quantifier": "All models, documents, features and states, including the first iteration from a fresh query state", "why_tests_cant": "That no other value would be better is a statement about all real numbers; tests only see that the likelihood does not look bad.", "anchors": ["sidetopics/model/stm_yv.py::train", "sidetopics/model/stm_yv.py::newQueryState", "sidetopics/model/ctm.py::negJakkolaOfDerivedXi"]}
{"id": "C273", "title": "The bound of the mixture sampler never exceeds the evidence", "statement": "The number that var_bound of the mixture sampler gives for a trained model is at most the logarithm of the probability of the words.", "quantifier": "every corpus, prior, plan and sequence of random draws, and every distribution of the parameters", "why_tests_cant": "needs a comparison with an integral over all parameters", "anchors": ["sidetopics/model/mom_gibbs.py::var_bound", "sidetopics/model/mom_gibbs.py::train"]}
{"id": "C274", "title": "Counts of topics in long documents are exact or refused", "statement": "While the regression model is trained or queried, the table of topic counts holds the numbers of tokens of each document in each topic, or the corpus is refused.", "quantifier": "every corpus, number of topics, order of visits and sequence of topics drawn", "why_tests_cant": "counts wrap around only for documents of more than 65,535 words, and every draw must be considered", "anchors": ["sidetopics/model/dmr.py::train", "sidetopics/model/dmr.py::query", "sidetopics/model/dmr_fast.pyx::sumSuffStats", "sidetopics/model/dmr_fast.pyx::sample"]}
{"id": "C275", "title": "A reported fall of the bound is a fall", "statement": "While debugging, the line of an update goes to the error stream exactly if the bound is lower than after the update before in the same training, and the difference shown is the change of the bound.", "quantifier": "every sequence of trainings and queries and all their bounds", "why_tests_cant": "the report depends on all trainings before in the same process", "anchors": ["sidetopics/model/ctm.py::_debug_with_bound", "sidetopics/model/ctm_bohning.py::_debug_with_bound", "sidetopics/model/mtm2.py::_debug_with_bound", "sidetopics/model/mtm3.py::_debug_with_bound", "sidetopics/model/stm_yv.py::_debug_with_bound", "sidetopics/util/misc.py::static_var"]}
{"id": "C276", "title": "Numbers that are not probabilities are not stored as topic assignments", "statement": "The compiled functions of the collapsed variational models store as a token's topic probabilities only numbers in the documented range -0.001..1.001; if they meet another number the caller of train or query can tell that the iterations were not completed.", "quantifier": "all corpora, priors, tables, numbers of iterations and random numbers", "why_tests_cant": "whether an intermediate weight leaves the range depends on all the counts and priors of the run", "anchors": ["sidetopics/model/lda_cvb0_fast.pyx::iterate_f64", "sidetopics/model/lda_cvb0_fast.pyx::is_invalid_prob_f64", "sidetopics/model/lda_cvb_fast.pyx::iterate_f32", "sidetopics/model/lda_cvb_fast.pyx::iterate_f64", "sidetopics/model/lda_cvb0.py::train"]}
{"id": "C277", "title": "The estimates of the feature-driven sampler are distributions", "statement": "After training the Dirichlet-multinomial regression model, topicDists gives for every document and wordDists for every topic strictly positive numbers that sum to one.", "quantifier": "all corpora, features, weights, optimisers, plans and random numbers", "why_tests_cant": "the estimates are sums over all rounds of sampling with weights that change in between", "anchors": ["sidetopics/model/dmr.py::train", "sidetopics/model/dmr.py::topicDists", "sidetopics/model/dmr.py::wordDists", "sidetopics/model/dmr_fast.pyx::sample"]}
{"id": "C278", "title": "Querying the feature-driven sampler preserves its word distributions", "statement": "The model that query of the Dirichlet-multinomial regression model returns has the word distributions of the model it was given.", "quantifier": "all trained models, documents, features, plans and random numbers", "why_tests_cant": "it depends on the numbers of samples of the two plans, for all of them", "anchors": ["sidetopics/model/dmr.py::query", "sidetopics/model/dmr.py::wordDists"]}
{"id": "C279", "title": "Likelihoods of the recommenders are those of the words under their topics", "statement": "log_likelihood of the similarity and offset recommenders is the log-likelihood of the words given the topics of the documents, so that their perplexities can be compared with those of other models.", "quantifier": "all corpora, topics, word distributions, offsets and methods", "why_tests_cant": "an equation between real numbers for all corpora and tables", "anchors": ["sidetopics/model/sim_based_rec.py::log_likelihood", "sidetopics/model/sim_based_rec.py::train", "sidetopics/model/lro_vb.py::log_likelihood", "sidetopics/model/lda_vb_python.py::log_likelihood"]}
{"id": "C280", "title": "The seed of a wrapper decides its random numbers", "statement": "The seed given to TopicModel (or assigned to its attribute) decides the random numbers of a fit that follows: the same seed reproduces the fitted model whatever ran before, and numpy's generator starts from the state that belongs to the given seed.", "quantifier": "all kinds of model, seeds, states of the generators, data and parameters", "why_tests_cant": "reproducibility over all histories of a process cannot be sampled; that a seed has no effect is a statement about all pairs of seeds", "anchors": ["sidetopics/model/sklearn/lda_cvb.py::TopicModel.__setattr__", "sidetopics/model/lda_gibbs.py::seed_rng", "sidetopics/model/lda_gibbs_fast.pyx::initGlobalRng", "sidetopics/model/lda_cvb0_fast.pyx::toWordList_i32"]}
{"id": "C281", "title": "Wrappers with the same seed fit the same model", "statement": "Two wrappers of the same kind with the same parameters and the same seed, fitted to the same data, give the same model, whatever ran between their construction and the call of fit.", "quantifier": "all kinds of model, seeds, generators and programs that run in between", "why_tests_cant": "quantifies over everything that can run between two calls", "anchors": ["sidetopics/model/sklearn/lda_cvb.py::TopicModel.__init__", "sidetopics/model/sklearn/lda_cvb.py::TopicModel.fit", "sidetopics/model/dmr.py::train"]}
{"id": "C282", "title": "A wrapper can be made again from its parameters", "statement": "Calling the constructor of TopicModel with the parameters that get_params returns for a wrapper, as scikit-learn's clone does, gives a wrapper with the same parameters.", "quantifier": "all arguments of the constructor that it accepts", "why_tests_cant": "the arguments are unbounded, and two of the stored values depend on others by default", "anchors": ["sidetopics/model/sklearn/lda_cvb.py::TopicModel.__init__", "sidetopics/model/sklearn/lda_cvb.py::TopicModel.__setattr__"]}
{"id": "C283", "title": "The settings given to a wrapper are the ones it uses", "statement": "A wrapper uses the settings given to its constructor; only settings left out or given as None get their defaults.", "quantifier": "all arguments of the constructor", "why_tests_cant": "a value that is silently replaced has to be found among all values", "anchors": ["sidetopics/model/sklearn/lda_cvb.py::TopicModel.__init__"]}
{"id": "C284", "title": "Changing a parameter is the same as constructing with it", "statement": "Changing one parameter of a wrapper by set_params has the effect of constructing it with the new value.", "quantifier": "all wrappers, parameters and values", "why_tests_cant": "quantifies over pairs of settings and all parameters", "anchors": ["sidetopics/model/sklearn/lda_cvb.py::TopicModel.__init__", "sidetopics/model/sklearn/lda_cvb.py::TopicModel.__setattr__"]}
{"id": "C285", "title": "Topics that start from documents prefer their words", "statement": "A model made by newModelAtRandom of rtm, self_lda_vb_python, mtm, mtm2, mtm3, lda_vb_python, mom_em or mom_gibbs starts each topic from documents drawn at random: it is made after finitely many draws, every word of the vocabulary gets a positive weight, and the weights are in proportion to one plus the occurrences in the drawn documents.", "quantifier": "all corpora, numbers of topics and sequences of drawn documents", "why_tests_cant": "quantifies over all random draws, and the drawing may not end", "anchors": ["sidetopics/model/rtm.py::newModelAtRandom", "sidetopics/model/self_lda_vb_python.py::newModelAtRandom", "sidetopics/model/mtm.py::newModelAtRandom", "sidetopics/model/mtm2.py::newModelAtRandom", "sidetopics/model/mtm3.py::newModelAtRandom", "sidetopics/model/lda_vb_python.py::newModelAtRandom", "sidetopics/model/mom_em.py::newModelAtRandom", "sidetopics/model/mom_gibbs.py::newModelAtRandom"]}
{"id": "C286", "title": "Initial topics have the scale of inferred ones", "statement": "The weights of words in a new model have the scale of those that training infers: distributions in mtm2 and mtm3; in mtm, which scales them so that they resemble something inferred from the dataset, they add up to the number of words in the corpus.", "quantifier": "all corpora, numbers of topics and drawn documents", "why_tests_cant": "a sum over all topics and words for all corpora", "anchors": ["sidetopics/model/mtm.py::newModelAtRandom", "sidetopics/model/mtm2.py::newModelAtRandom", "sidetopics/model/mtm3.py::newModelAtRandom"]}
{"id": "C287", "title": "No two topics start alike", "statement": "The topics of a new model of rtm, self_lda_vb_python, mtm, mtm2 or mtm3 are different from each other.", "quantifier": "all corpora without repeated documents, numbers of topics and random draws", "why_tests_cant": "depends on the random draws", "anchors": ["sidetopics/model/rtm.py::newModelAtRandom", "sidetopics/model/self_lda_vb_python.py::newModelAtRandom", "sidetopics/model/mtm.py::newModelAtRandom", "sidetopics/model/mtm2.py::newModelAtRandom", "sidetopics/model/mtm3.py::newModelAtRandom"]}
{"id": "C288", "title": "Random starting points of the variational and mixture models are valid", "statement": "The topics that lda_vb and lda_svb start with are distributions in which every word has at least half of its uniform share. The topics of documents in a new query state are distributions (lda_vb, lda_svb, mom_em), or add up to the length of the document and the prior and are nowhere below the prior (lda_vb_python, mom_gibbs).", "quantifier": "all corpora of at least two documents, positive priors and drawn distributions", "why_tests_cant": "quantifies over all draws, including distributions with zeros", "anchors": ["sidetopics/model/lda_vb.py::newModelAtRandom", "sidetopics/model/lda_svb.py::newModelAtRandom", "sidetopics/model/lda_vb_python.py::newQueryState", "sidetopics/model/mom_gibbs.py::newQueryState", "sidetopics/model/mom_em.py::newQueryState", "sidetopics/model/lda_vb.py::newQueryState", "sidetopics/model/lda_svb.py::newQueryState"]}
{"id": "C289", "title": "Wrapped models report the parameters they were made with", "statement": "get_params of WrappedSckitLda and WrappedScikitHdp, which scikit-learn uses to clone estimators and to search grids, returns the arguments of the constructor.", "quantifier": "all arguments of the constructors", "why_tests_cant": "quantifies over all arguments of constructors with about twenty parameters", "anchors": ["sidetopics/model/sklearn/lda_cvb.py::WrappedSckitLda.__init__", "sidetopics/model/sklearn/lda_cvb.py::WrappedScikitHdp.__init__"]}
{"id": "C290", "title": "Priors given to a wrapped model have an effect", "statement": "The priors over topics and words, like the other settings of the model that are given to the constructor of a wrapped model, are passed on to it.", "quantifier": "all pairs of arguments of the constructors", "why_tests_cant": "compares two runs for all values of the priors", "anchors": ["sidetopics/model/sklearn/lda_cvb.py::WrappedSckitLda.__init__", "sidetopics/model/sklearn/lda_cvb.py::WrappedScikitHdp.__init__"]}
{"id": "C291", "title": "The dictionary for gensim has every word of the vocabulary", "statement": "gensim_dictionary returns a dictionary with the tokens word-0, word-1, ..., one for each word of the vocabulary, together with the numbers of documents and words and the number of documents in which each word occurs.", "quantifier": "all datasets", "why_tests_cant": "words that do not occur in a subset of a corpus are the case to consider", "anchors": ["sidetopics/model/common.py::DataSet.gensim_dictionary"]}
{"id": "C292", "title": "The documented models can be reported", "statement": "The report generator accepts each of the documented names of models and reports on the model and the bound named; a name that is not documented is refused.", "quantifier": "every option, every list of topic counts and latent sizes", "why_tests_cant": "all texts of the options", "anchors": ["sidetopics/run/report_generator.py::run"]}
{"id": "C293", "title": "A report covers exactly the saved folds of its model", "statement": "The files used for a report are exactly those that the program saved for the model, the bound and the sizes of the report, whatever the fold, the directory and the time.", "quantifier": "every model, bound, size, fold, time and every file", "why_tests_cant": "all names of files; two programs have to agree on names", "anchors": ["sidetopics/run/report_generator.py::_generate_report", "sidetopics/run/__main__.py::newModelFile", "sidetopics/run/__main__.py::save_model"]}
{"id": "C294", "title": "Every configuration has its own report and its own count", "statement": "Different models, bounds and sizes are reported in different files; the returned dictionary has the number of folds found for each, a report is written exactly for those with at least one fold, and a report that fails counts zero folds.", "quantifier": "every directory content, every list of bounds and sizes", "why_tests_cant": "all directories and all combinations of sizes", "anchors": ["sidetopics/run/report_generator.py::generate_reports_ctm", "sidetopics/run/report_generator.py::generate_reports_stm_yv", "sidetopics/run/report_generator.py::_generate_report"]}
{"id": "C295", "title": "A report is its template with the placeholders filled", "statement": "Text of the template is copied, a doubled dollar becomes one, each placeholder becomes the bound, the implementation, a directory or the list of the files, and an unknown placeholder is refused.", "quantifier": "every template and every list of files", "why_tests_cant": "all templates", "anchors": ["sidetopics/run/report_generator.py::_generate_report"]}
{"id": "C296", "title": "The exported table of results is read back", "statement": "The table written for R has the headings and exactly one line for each algorithm, group of documents and cut-off, and a reader of tables with commas and quotes gets the name, topics and description of the algorithm and the scores of that group at that cut-off.", "quantifier": "every list of algorithms with results", "why_tests_cant": "all names and tables; quoting", "anchors": ["sidetopics/run/reshape_results.py::write_all_results", "sidetopics/run/reshape_results.py::to_delim_str"]}
{"id": "C297", "title": "Printed tables of scores can be read back", "statement": "The tables of precision and recall which the evaluations print are read by the tool which reshapes results: for every group the number of documents and each score to the digits printed, for the joined groups the average over their documents; the same holds for the perplexity, the reciprocal rank and the average precision.", "quantifier": "all scores, numbers of documents and orders of the groups", "why_tests_cant": "all scores and counts; the printing and the reading program are only ever tested apart", "anchors": ["sidetopics/run/__main__.py::printTable", "sidetopics/run/reshape_results.py::read_table", "sidetopics/run/reshape_results.py::read_perplexity", "sidetopics/run/reshape_results.py::read_mrr"]}
{"id": "C298", "title": "The exported results of a run are those of all its folds", "statement": "If the output of a cross-validated evaluation is given to the tool which reshapes results then the scores exported are the averages over all folds.", "quantifier": "all runs with any number of folds and any other lines printed in between", "why_tests_cant": "any number of folds and any output in between", "anchors": ["sidetopics/run/__main__.py::cross_val_and_eval_tag_prec_rec_at_m", "sidetopics/run/reshape_results.py::read_next_result_batch", "sidetopics/run/reshape_results.py::read_all_results"]}
{"id": "C299", "title": "Queried documents are characterised by their words alone", "statement": "Querying the third matrix topic model uses only the words of the documents, as its documentation says: whatever links are in the data, the topic weights of a document are the same.", "quantifier": "all corpora, links, models and numbers of iterations", "why_tests_cant": "a continuum of models and weights", "anchors": ["sidetopics/model/mtm3.py::query"]}
{"id": "C300", "title": "Renumbering the words changes nothing but the numbers", "statement": "Training and querying a mixture by EM, variational LDA (compiled or in Python, with any learning rates), the correlated topic model or the B\u00f6hning model on a corpus whose words have other column numbers, from a starting point with the same renumbering, gives the same results under the new numbers: the same topics of documents, the same weights of words, the same errors.", "quantifier": "all corpora, permutations of the vocabulary, models, plans and starting points", "why_tests_cant": "all permutations of vocabularies of any size", "anchors": ["sidetopics/model/mom_em.py::train", "sidetopics/model/lda_vb_python.py::train", "sidetopics/model/lda_vb.py::train", "sidetopics/model/ctm.py::train", "sidetopics/model/ctm_bohning.py::train"]}
{"id": "C301", "title": "No topic is treated differently from the others", "statement": "Exchanging the topics of the starting point of a mixture (EM), variational LDA, the correlated topic model or the B\u00f6hning model exchanges the topics of the result.", "quantifier": "all corpora, permutations of the topics, models, plans and starting points", "why_tests_cant": "all permutations of topics and all starting points", "anchors": ["sidetopics/model/mom_em.py::train", "sidetopics/model/lda_vb_python.py::train", "sidetopics/model/lda_vb.py::train", "sidetopics/model/ctm.py::train", "sidetopics/model/ctm_bohning.py::train"]}
{"id": "C302", "title": "The order of the documents does not matter to training on the whole corpus", "statement": "Training a mixture by EM, variational LDA without mini-batches, the correlated topic model or the B\u00f6hning model on the same documents in another order (and, for compiled LDA, with the words of each document in another order) gives the same model, and every document the same topics.", "quantifier": "all corpora, permutations of the documents, models, plans and starting points", "why_tests_cant": "all orders of corpora of any size", "anchors": ["sidetopics/model/mom_em.py::train", "sidetopics/model/lda_vb_python.py::train", "sidetopics/model/lda_vb.py::train", "sidetopics/model/ctm.py::train", "sidetopics/model/ctm_bohning.py::train"]}
{"id": "C303", "title": "Training can be interrupted and continued", "statement": "Training for n iterations and then, with the model and the state returned, for m more gives what training for n + m iterations at once gives, unless one of the runs stops early.", "quantifier": "all corpora, models, starting points and numbers of iterations; for models that keep a log of fixed size a log frequency that divides both numbers", "why_tests_cant": "all numbers of iterations in both stages", "anchors": ["sidetopics/model/mom_em.py::train", "sidetopics/model/lda_vb_python.py::train", "sidetopics/model/lda_vb.py::train", "sidetopics/model/ctm.py::train", "sidetopics/model/ctm_bohning.py::train"]}
{"id": "C304", "title": "Samplers and collapsed models see words only as labels", "statement": "If the words of the vocabulary get other numbers, with the tokens in the same order and the same random numbers, then training and queries give every token and document the same topics, and the topics the same words under the new numbers.", "quantifier": "all corpora, priors, models, plans, random numbers and renumberings of the words", "why_tests_cant": "all renumberings", "anchors": ["sidetopics/model/lda_gibbs.py::train", "sidetopics/model/lda_gibbs.py::query", "sidetopics/model/dmr.py::train", "sidetopics/model/dmr.py::query", "sidetopics/model/lda_cvb0.py::train", "sidetopics/model/lda_cvb.py::train"]}
{"id": "C305", "title": "Topics of collapsed models are interchangeable", "statement": "Exchanging the topics in the random numbers, the priors and the model with which collapsed variational training starts exchanges the topics of the result and changes nothing else, though the topics of a token are updated one after the other.", "quantifier": "all corpora, positive priors, models, plans, starting points and renumberings of the topics, for both collapsed models and both precisions", "why_tests_cant": "all renumberings", "anchors": ["sidetopics/model/lda_cvb0.py::train", "sidetopics/model/lda_cvb.py::train", "sidetopics/model/lda_cvb0_fast.pyx::iterate_f32", "sidetopics/model/lda_cvb_fast.pyx::iterate_f64"]}
{"id": "C306", "title": "Numbers do not matter to the topic models with features", "statement": "If words, topics, features and latent features get other numbers, in the corpus and in the starting point, then training the topic models with document features gives the same model under these numbers, and queries run equally long and give the same topic weights. The documents may get other numbers too, except for training of stm_yv_bohning.", "quantifier": "all corpora, features, starting points, numbers of iterations and renumberings, for every matrix inverse that follows rows and columns (the exact inverse does)", "why_tests_cant": "all renumberings", "anchors": ["sidetopics/model/stm_yv.py::train", "sidetopics/model/stm_yv.py::query", "sidetopics/model/stm_uv_vecy_bohning.py::train", "sidetopics/model/stm_yv_bohning.py::train", "sidetopics/model/stm_yv_bohning.py::query"]}
{"id": "C307", "title": "Numbers do not matter to the models of links", "statement": "If words and topics get other numbers, in the corpus and in the starting point, then training the relational topic model and the three matrix topic models ends in the same way and gives the same model under these numbers. For mtm2 and mtm3 the documents, and with them both ends of every link, may get other numbers too; their queries give the same weights, and the predicted links are those of the same documents.", "quantifier": "all corpora, links, starting points, numbers of iterations and renumberings, for every matrix inverse that follows rows and columns (the exact inverse does)", "why_tests_cant": "all renumberings", "anchors": ["sidetopics/model/rtm.py::train", "sidetopics/model/mtm.py::train", "sidetopics/model/mtm2.py::train", "sidetopics/model/mtm2.py::query", "sidetopics/model/mtm2.py::min_link_probs", "sidetopics/model/mtm3.py::train", "sidetopics/model/mtm3.py::query", "sidetopics/model/mtm3.py::link_probs"]}
{"id": "C308", "title": "Scores of predicted links do not depend on the numbers of the documents", "statement": "If the documents get other numbers and another order, in the expected links and in the predicted ones, then mean average precision, mean reciprocal rank, and precision and recall by group are the same.", "quantifier": "all expected and predicted links and all renumberings", "why_tests_cant": "all renumberings, including links with equal scores", "anchors": ["sidetopics/model/evals.py::mean_average_prec", "sidetopics/model/evals.py::mean_reciprocal_rank", "sidetopics/model/evals.py::mean_prec_rec_at"]}
{"id": "C309", "title": "Predicting an expected link more strongly never lowers the scores", "statement": "If the predicted score of one expected link is raised, everything else staying as it is, and no two links of that document have the same score before or after, then mean average precision, mean reciprocal rank, and precision and recall at every cut-off and in every group stay the same or rise.", "quantifier": "all corpora of expected and predicted links, all expected links and all raises", "why_tests_cant": "the number of corpora, rankings and raises is infinite, and the claim compares two runs for each", "anchors": ["sidetopics/model/evals.py::mean_average_prec", "sidetopics/model/evals.py::mean_reciprocal_rank", "sidetopics/model/evals.py::mean_prec_rec_at"]}
{"id": "C310", "title": "Training a model of links can be interrupted", "statement": "Training a model of words and links for some iterations, and for some more from the model and the state returned, gives what a single run with all the iterations gives, if no run stops early.", "quantifier": "all corpora, links, starting points and numbers of iterations", "why_tests_cant": "the claim compares runs for all ways to divide all numbers of iterations", "anchors": ["sidetopics/model/mtm.py::train", "sidetopics/model/mtm2.py::train", "sidetopics/model/mtm3.py::train", "sidetopics/model/rtm.py::train"]}
{"id": "C311", "title": "Training a topic model with features can be interrupted", "statement": "Training stm_yv or stm_uv_vecy_bohning for some iterations, and for some more from the model and the state returned, gives what a single run with all the iterations gives, if no run stops early.", "quantifier": "all corpora, features, parameters, starting points and numbers of iterations", "why_tests_cant": "the claim compares runs for all ways to divide all numbers of iterations", "anchors": ["sidetopics/model/stm_yv.py::train", "sidetopics/model/stm_uv_vecy_bohning.py::train"]}
{"id": "C312", "title": "Without truncation every evaluation runs all folds", "statement": "If --truncate-folds is not given then every evaluation chosen with --eval runs each of the folds once, in order, and prints the results of all of them.", "quantifier": "all evaluations with folds, all numbers of folds of at least two, all outcomes of folds", "why_tests_cant": "the claim is about all numbers of folds for each of six evaluations", "anchors": ["sidetopics/run/__main__.py::run", "sidetopics/run/__main__.py::cross_val_and_eval_tag_prec_rec_at_m", "sidetopics/run/__main__.py::link_split_prec_rec", "sidetopics/run/__main__.py::insample_lro_style_prec_rec"]}
{"id": "C313", "title": "Truncated evaluations run the first folds, and never more than there are", "statement": "If --truncate-folds is r then every evaluation chosen with --eval runs the first r folds, or all of them if there are fewer, and prints the results.", "quantifier": "all evaluations with folds, all numbers of folds and truncations, all outcomes of folds", "why_tests_cant": "the claim is about all numbers of folds and truncations for each of six evaluations", "anchors": ["sidetopics/run/__main__.py::run", "sidetopics/run/__main__.py::link_split_map", "sidetopics/run/__main__.py::link_split_prec_rec", "sidetopics/run/__main__.py::cross_val_and_eval_tag_prec_rec_at_m"]}
{"id": "C314", "title": "Words with the same counts get the same probabilities", "statement": "If two words occur equally often in every document (for instance never), and start with the same values and priors, then after training every topic gives both the same value.", "quantifier": "all corpora, pairs of such words, starting points, plans and numbers of iterations; for models that measure themselves, all measurements that do not depend on the numbers of words; for every matrix inverse and estimator of the covariance that follows rows and columns", "why_tests_cant": "all corpora with such words and all numbers of iterations", "anchors": ["sidetopics/model/mom_em.py::train", "sidetopics/model/lda_vb_python.py::train", "sidetopics/model/lda_vb.py::train", "sidetopics/model/ctm.py::train", "sidetopics/model/ctm_bohning.py::train", "sidetopics/model/stm_uv_vecy_bohning.py::train", "sidetopics/model/stm_yv.py::train", "sidetopics/model/mtm.py::train", "sidetopics/model/mtm2.py::train", "sidetopics/model/mtm3.py::train", "sidetopics/model/rtm.py::train"]}
{"id": "C315", "title": "Copies of a document get the same topics", "statement": "If two documents have the same words, the same features where the model has features and the same links where it has links, and start with the same values, then after training on all documents at once both have the same topics. In a query of a mixture model too.", "quantifier": "all corpora, pairs of such documents, starting points and numbers of iterations, for models that do not depend on the order of the documents; for every matrix inverse and estimator of the covariance that follows rows and columns", "why_tests_cant": "all corpora with such documents and all numbers of iterations", "anchors": ["sidetopics/model/mom_em.py::train", "sidetopics/model/mom_em.py::query", "sidetopics/model/lda_vb_python.py::train", "sidetopics/model/lda_vb.py::train", "sidetopics/model/ctm.py::train", "sidetopics/model/ctm_bohning.py::train", "sidetopics/model/stm_uv_vecy_bohning.py::train", "sidetopics/model/stm_yv.py::train", "sidetopics/model/mtm2.py::train", "sidetopics/model/mtm3.py::train"]}
{"id": "C316", "title": "Topics that start alike stay alike", "statement": "If two topics start with the same values and have the same priors then training never tells them apart: they end with the same words and the same weights in every document. In the correlated topic model this holds for topics other than the first.", "quantifier": "all corpora, pairs of topics, such starting points, plans and numbers of iterations; as in C314 for measurements and matrices", "why_tests_cant": "all starting points in which two topics agree, and all numbers of iterations", "anchors": ["sidetopics/model/mom_em.py::train", "sidetopics/model/lda_vb_python.py::train", "sidetopics/model/lda_vb.py::train", "sidetopics/model/ctm.py::train", "sidetopics/model/ctm_bohning.py::train", "sidetopics/model/stm_uv_vecy_bohning.py::train", "sidetopics/model/stm_yv.py::train", "sidetopics/model/mtm.py::train", "sidetopics/model/mtm3.py::train", "sidetopics/model/mtm2.py::train", "sidetopics/model/rtm.py::train"]}
{"id": "C317", "title": "Words that occur in no document keep the weight of their prior", "statement": "After training, the weight that a topic gives to a word of the vocabulary that is in no document comes from the prior alone. Where the model keeps parameters, the parameter is exactly the prior; where it keeps probabilities, the word has the probability prior / (tokens of the topic + sum of the priors), so never zero.", "quantifier": "all corpora and vocabularies, words that do not occur, positive priors, starting points, plans and numbers of iterations from one on, and all choices of the random numbers for the samplers", "why_tests_cant": "all corpora that lack a word, and all numbers of iterations", "anchors": ["sidetopics/model/mom_em.py::train", "sidetopics/model/lda_vb_python.py::train", "sidetopics/model/lda_vb.py::train", "sidetopics/model/lda_gibbs.py::train", "sidetopics/model/lda_cvb.py::train", "sidetopics/model/lda_cvb0.py::train", "sidetopics/model/ctm.py::train", "sidetopics/model/ctm_bohning.py::train", "sidetopics/model/stm_yv.py::train", "sidetopics/model/mtm3.py::train"]}
{"id": "C318", "title": "Documents without words are refused or get the topics that are expected beforehand", "statement": "A document without words says nothing about its topics. Either the model refuses it with a ValueError, or it gets the topics that the model expects of any document: the normalised prior, or in a mixture the weights of the classes.", "quantifier": "all corpora and models, documents without words, priors, starting points, plans and numbers of iterations from one on, and all choices of the random numbers for the samplers", "why_tests_cant": "all corpora with empty documents and all numbers of iterations", "anchors": ["sidetopics/model/mom_em.py::train", "sidetopics/model/mom_em.py::query", "sidetopics/model/lda_vb_python.py::train", "sidetopics/model/lda_vb.py::query", "sidetopics/model/lda_gibbs.py::train", "sidetopics/model/lda_gibbs.py::query", "sidetopics/model/lda_cvb0.py::train", "sidetopics/model/mtm.py::train"]}
{"id": "C319", "title": "Features that no document has", "statement": "Training learns nothing about a feature that no document has: its weights in a topic are those that the prior expects, which is the product of the topic's and the feature's factors, or zero where there are no factors. In queries the weights of features that no queried document has make no difference.", "quantifier": "all corpora, features that no document has, positive variances of the prior, starting points, numbers of iterations from one on, and for queries all weights, plans and random numbers", "why_tests_cant": "all corpora that lack a feature, and all numbers of iterations", "anchors": ["sidetopics/model/stm_yv.py::train", "sidetopics/model/stm_yv.py::query", "sidetopics/model/stm_uv_vecy_bohning.py::train", "sidetopics/model/stm_uv_vecy_bohning.py::query", "sidetopics/model/stm_yv_bohning.py::train", "sidetopics/model/dmr.py::train", "sidetopics/model/dmr.py::query"]}
{"id": "C320", "title": "Without links the relational topic model is a model of the words alone", "statement": "The topics of a document without links depend on its words, its own earlier topics and the prior alone, not on the weights of the links or the topics of other documents. In a corpus without links the words, topics and priors that are learnt, and the bound that is reported, do not depend on the link function, the weights that training starts from, the number of invented negative examples or the strength of the regularisation.", "quantifier": "all corpora, documents without links, link functions, weights, numbers of negative examples, strengths of the regularisation, starting points and numbers of iterations", "why_tests_cant": "all corpora without links and all pairs of link settings", "anchors": ["sidetopics/model/rtm.py::train", "sidetopics/model/rtm.py::_infer_topics_at_d", "sidetopics/model/rtm.py::_sum_of_scores_at_d", "sidetopics/model/rtm.py::_infer_weights", "sidetopics/model/rtm.py::var_bound"]}
{"id": "C321", "title": "Documents without expected links do not enter the scores of predicted links", "statement": "There is nothing to predict for a document without expected links, so the mean average precision, the mean reciprocal rank and precision and recall at any cut-off are the same with and without it. In particular a perfect prediction scores one.", "quantifier": "all lists of documents, expected links, predictions and rankings, cut-offs and groups", "why_tests_cant": "all mixtures of documents with and without expected links", "anchors": ["sidetopics/model/evals.py::mean_average_prec", "sidetopics/model/evals.py::mean_reciprocal_rank", "sidetopics/model/evals.py::mean_prec_rec_at"]}
{"id": "C322", "title": "The likelihoods of the parts of a corpus add up", "statement": "The log-likelihood of a corpus is the sum of the log-likelihoods of its parts under the same model, each document with its own topics, so that it does not matter whether a test set is scored at once or in parts. The perplexity of the whole lies between those of the parts.", "quantifier": "all corpora, divisions into two parts, models and topics of documents", "why_tests_cant": "all corpora and all ways to divide them", "anchors": ["sidetopics/model/ctm.py::log_likelihood", "sidetopics/model/lda_vb_python.py::log_likelihood", "sidetopics/model/rtm.py::log_likelihood", "sidetopics/model/mtm.py::log_likelihood", "sidetopics/model/mom_em.py::log_likelihood_point", "sidetopics/model/mom_em.py::log_likelihood_expected", "sidetopics/model/mom_gibbs.py::log_likelihood_point", "sidetopics/model/evals.py::perplexity_from_like"]}
{"id": "C323", "title": "Predictions that are not expected never raise the scores", "statement": "Predicting an additional link that is not among the expected ones never raises mean average precision, the mean reciprocal rank, or precision and recall at any cut-off, whatever score the additional link has and whatever the other documents are.", "quantifier": "all corpora, predictions, expected links, additional links with a score of their own, cut-offs and groups", "why_tests_cant": "all predictions, and all places of the additional link in the ranking", "anchors": ["sidetopics/model/evals.py::mean_average_prec", "sidetopics/model/evals.py::mean_reciprocal_rank", "sidetopics/model/evals.py::mean_prec_rec_at"]}
{"id": "C324", "title": "Predicting an expected link never lowers the scores", "statement": "Predicting an expected link that was left out of the prediction before never lowers mean average precision, the mean reciprocal rank, or precision and recall at any cut-off, however low it is ranked, so that a predictor cannot gain by leaving out correct links.", "quantifier": "all corpora, predictions, expected links that are left out, scores, cut-offs and groups", "why_tests_cant": "all predictions, and all places of the additional link in the ranking", "anchors": ["sidetopics/model/evals.py::mean_average_prec", "sidetopics/model/evals.py::mean_reciprocal_rank", "sidetopics/model/evals.py::mean_prec_rec_at"]}
{"id": "C325", "title": "The link scores of a corpus are the weighted means of those of its parts", "statement": "Mean average precision of a corpus is the mean of those of its parts weighted with their numbers of documents, the mean reciprocal rank with their numbers of expected links that are predicted, and precision and recall in a group with their numbers of documents in the group, so that the score of the whole lies between those of the parts. A part in which no expected link is predicted has no mean reciprocal rank and does not change that of the whole.", "quantifier": "all corpora, divisions into two parts, predictions, cut-offs and groups", "why_tests_cant": "all corpora and all ways to divide them", "anchors": ["sidetopics/model/evals.py::mean_average_prec", "sidetopics/model/evals.py::mean_reciprocal_rank", "sidetopics/model/evals.py::mean_prec_rec_at"]}
{"id": "C326", "title": "Only the order of the scores of predicted links matters", "statement": "Mean average precision, the mean reciprocal rank and precision and recall do not change when the scores of the predicted links are replaced by others in the same order within each document, for example by their logarithms or by probabilities that are normalised in each document. So models that score links on different scales can be compared.", "quantifier": "all corpora, predictions, and replacements of scores that keep their order within each document", "why_tests_cant": "all predictions and all increasing functions", "anchors": ["sidetopics/model/evals.py::mean_average_prec", "sidetopics/model/evals.py::mean_reciprocal_rank", "sidetopics/model/evals.py::mean_prec_rec_at"]}
{"id": "C327", "title": "No prediction scores higher than a perfect one", "statement": "A prediction that contains all expected links, with higher scores than all others, has the highest mean average precision, mean reciprocal rank, precision and recall of all predictions for the same expected links.", "quantifier": "all corpora, expected links, predictions, cut-offs and groups", "why_tests_cant": "all predictions: tests can only compare with a few", "anchors": ["sidetopics/model/evals.py::mean_average_prec", "sidetopics/model/evals.py::mean_reciprocal_rank", "sidetopics/model/evals.py::mean_prec_rec_at"]}
{"id": "C328", "title": "No model beats the word frequencies of each document", "statement": "The log-likelihood of a corpus is never above, and its perplexity never below, what the word frequencies of each document give, whatever the topics and words of the model are. The value is attained by a topic with the frequencies of a document. (The smallest positive number, by which zero probabilities are replaced before taking logarithms, allows a factor of one plus its product with the number of words.)", "quantifier": "all corpora, models and topics of documents", "why_tests_cant": "all models: tests can only compare with a few", "anchors": ["sidetopics/model/ctm.py::log_likelihood", "sidetopics/model/lda_vb_python.py::log_likelihood", "sidetopics/model/rtm.py::log_likelihood", "sidetopics/model/mtm.py::log_likelihood", "sidetopics/model/mom_gibbs.py::log_likelihood_point", "sidetopics/model/mom_em.py::log_likelihood_point", "sidetopics/model/evals.py::perplexity_from_like"]}
{"id": "C329", "title": "Perplexity depends on the proportions of the words only", "statement": "If every word of a corpus is counted several times, the log-likelihood is multiplied with the same number and the perplexity does not change, in all models in which each word has a topic of its own. So corpora with counts of different magnitude can be compared. (In the mixture fitted by expectation maximisation, in which a document has one topic, longer documents are more certain, and this does not hold.)", "quantifier": "all corpora, multiples, models and topics of documents", "why_tests_cant": "all corpora and multiples", "anchors": ["sidetopics/model/ctm.py::log_likelihood", "sidetopics/model/lda_vb_python.py::log_likelihood", "sidetopics/model/rtm.py::log_likelihood", "sidetopics/model/mtm.py::log_likelihood", "sidetopics/model/mom_gibbs.py::log_likelihood_point", "sidetopics/model/mom_em.py::log_likelihood_point", "sidetopics/model/evals.py::perplexity_from_like"]}
{"id": "C330", "title": "Perplexities over different vocabularies cannot be compared", "statement": "If words are merged, in the corpus and in the model (their counts and their weights added), the log-likelihood never falls and the perplexity never rises, in all models but the self-linked LDA, whose likelihood of links is computed from the words. So a smaller vocabulary looks better though nothing was learned, and perplexities can be compared only if the words are the same.", "quantifier": "all corpora, models, topics of documents and ways to merge words", "why_tests_cant": "all models and ways to merge words", "anchors": ["sidetopics/model/ctm.py::log_likelihood", "sidetopics/model/lda_vb_python.py::log_likelihood", "sidetopics/model/rtm.py::log_likelihood", "sidetopics/model/mtm.py::log_likelihood", "sidetopics/model/mtm3.py::log_likelihood", "sidetopics/model/mom_em.py::log_likelihood_point", "sidetopics/model/mom_gibbs.py::log_likelihood_point", "sidetopics/model/evals.py::perplexity_from_like"]}
