{
 "C01": {
  "status": "proved",
  "note": "All four clauses for every existing period and every integer shift."
 },
 "C02": {
  "status": "partial",
  "note": "Print/parse round trip proved for years 1000..9999; the claim that only existing periods are accepted is false of the code (step 0 or negative accepted), negation proved."
 },
 "C03": {
  "status": "partial",
  "note": "Proved for samples of at most 32767 periods; beyond, the 16-bit counter breaks the claim (counter-example and exact boundary proved)."
 },
 "C04": {
  "status": "proved",
  "note": "Intersection is exactly the common periods, error exactly when there is none or periodicities differ."
 },
 "C06": {
  "status": "partial",
  "note": "Proved over all histories for all types but comments, for histories without rename onto a used name (first clause) / without clearing a subset (second clause). Each excluded case is a proved counter-example."
 },
 "C08": {
  "status": "proved",
  "note": "All histories of the modelled operations, all object types. Loading a binary file does not check names and is outside this statement."
 },
 "C05": {
  "status": "partial",
  "note": "All histories, every workspace that is not a subset, all types but comments (false for comments: counter-example proved). Answers and contents equal those of a finite map."
 },
 "C07": {
  "status": "partial",
  "note": "All types but comments, in the whole family of registered subsets; comments and cleared subsets are proved counter-examples."
 },
 "C09": {
  "status": "partial",
  "note": "All types but comments; content of the copy and independence in both directions over all later histories; the general independence of families holds for all types."
 },
 "C10": {
  "status": "partial",
  "note": "Pointwise content after merge for a top-level target and a source of another family, all types but comments; merging a subset into its own parent is a proved counter-example."
 },
 "C11": {
  "status": "partial",
  "note": "All histories of the modelled operations except three excluded operation kinds (rename onto a used name, clear of a subset, unfair samples), each excluded one shown necessary by a counterexample."
 },
 "C12": {
  "status": "partial",
  "note": "Pointwise specification of set_sample and exact success condition in every state reached by a regular history; histories excluded by C11's counterexamples are missing."
 },
 "C13": {
  "status": "partial",
  "note": "Receiving workspace top-level, giving workspace of another family with a sample: pointwise specification, exact failure condition. Missing: same family (counterexample: merging into a subset destroys data) and no giving sample (counterexample: null pointer)."
 },
 "C14": {
  "status": "proved",
  "note": "Exact arithmetic over any field of characteristic zero; rounding of doubles is not modelled. The frame theorem is for states reached by regular histories."
 },
 "C15": {
  "status": "partial",
  "note": "Every state reached by a regular history, every method, sample and set of names; irregular histories (C11) and the wildcard selection are missing."
 },
 "C16": {
  "status": "proved",
  "note": "Pack layout proved for word sizes 4 and 8 and total size below 2^31: every element added is given back, in order, byte for byte, with its length, and the element count is right."
 },
 "C17": {
  "status": "proved",
  "note": "For every non-empty workspace of packs (first word = own length, which C16 gives), every lossless compressor, compressed or not: save then load gives the same map. Header modelled field by field, not byte by byte."
 },
 "C18": {
  "status": "partial",
  "note": "False in general: three counterexamples (absent name gets its neighbour's object, other order gets other objects, compressed file gives compressed bytes). Proved for uncompressed files and strictly increasing lists whose names are present or beyond the last one."
 },
 "C19": {
  "status": "partial",
  "note": "False for start years that are multiples of 256 (C19_lost, C19_counterexample); proved for every other sample, both word sizes."
 },
 "C20": {
  "status": "proved",
  "note": "One save stopped anywhere, and any history of saves stopped anywhere. Process stop, not machine stop. After a crash the next save destroys the backup (counterexample); a failed copy is ignored (counterexample)."
 },
 "C21": {
  "status": "partial",
  "note": "Round trip proved for chunks up to c*c words and names short enough not to be cut; soundness of expansion for every text and workspace; empty list, overlap, long name and cycle are counterexamples"
 },
 "C22": {
  "status": "partial",
  "note": "Priority of the first file proved when every file has a requested name, for all types but comments and variables; stop at the first other file proved; counterexamples for a name only in a later file and for variables"
 },
 "C23": {
  "status": "partial",
  "note": "Pattern matching: SCR_grep_1 answers exactly the specification for every pattern and string, except patterns ending with several '*', '*' followed only by '!'/'|', doubled '!'/'|', a lone final backslash, and '&' at the end of the string (undefined); each exception is refuted or shown undefined."
 },
 "C24": {
  "status": "partial",
  "note": "Any text of the documented grammar compiles and, if it contains no lcount, no function of several expressions, no time function in front of an unparenthesised call, and no ordinary call among the arguments of NA-accepting functions or in the lag of a time function, its value is the value of its tree, for every arithmetic. The grammar is unambiguous and every tree has a text. Counterexamples proved for each exception."
 },
 "C25": {
  "status": "partial",
  "note": "From an empty operator stack exactly the grammar is accepted; missing pieces are rejected from any state; unbalanced texts rejected; undefined behaviour characterised; accepted code leaves one value. False after a rejected formula (operator stack never cleared), for () and (A,B), lcount: counterexamples proved."
 },
 "C26": {
  "status": "partial",
  "note": "Proved for formulas made of constants, variables, coefficients, operators and functions that do not accept missing arguments, at the level of texts. if, isan, lmean, lstderr and lcount accept missing values by design (counterexample given); time functions are covered by the value theorems of C24 only."
 },
 "C27": {
  "status": "partial",
  "note": "Proved for formulas without t, i and range functions (lag) and without time functions (date), at the level of texts. Counterexamples: t[-1], (sum(A))[-1], max(A,B)[-1], (d(A))[p]."
 },
 "C28": {
  "status": "partial",
  "note": "In exact arithmetic all listed functions except four have the manual's value, at the level of texts. if takes its last argument as condition, log(b,x) is inverted, div0 is reversed, lcount leaves its arguments on the stack (C24/C25): counterexamples and theorems saying what is computed. The functions of two expressions (corr, covar, ...) are the subject of C67."
 },
 "C29": {
  "status": "proved",
  "note": "Including linking by position and failing links. Texts are token lists as the lexer delivers them (names classified as variable or coefficient). That evaluation leaves the workspaces alone is visible in the model: the executor only reads them. A linked formula executed after names were added reads other variables (counterexample)."
 },
 "C30": {
  "status": "partial",
  "note": "Proved over exact real numbers for equations in which the variable occurs once at the current period under parentheses, the four operations, the base of a power, ln/exp/signs/trigonometric functions and d/dln/grt/r; several occurrences give lhs-rhs; functions without inverse are refused. Counterexamples: exponents, exp with a base, a call with several arguments behind the variable, a date equal to the current period, a malformed side (undefined behaviour)."
 },
 "C31": {
  "status": "partial",
  "note": "Newton: the answer is a stored root within the tolerance, failure restores the variable (if the formula is missing where the unknown is; otherwise counterexample), nothing else is touched. False for the secant method used when Newton fails: it may answer with a value whose residual is not small (counterexamples: jump, missing values taken for negative residuals, uninitialised bound); proved there: store untouched and a sign change next to the answer."
 },
 "C32": {
  "status": "partial",
  "note": "For the sorted modes the order is a permutation of the equations. For SORT_NONE with a caller's list this holds under the hypothesis that the list names every equation once; counterexamples show a duplicate list leaves equations unsolved and a short list is undefined behaviour."
 },
 "C33": {
  "status": "partial",
  "note": "Soundness of the prolog is proved. Completeness is proved for models without coefficients in equations; with coefficients a counterexample shows equations left in the simultaneous block."
 },
 "C34": {
  "status": "proved",
  "note": "Every equation of the epilog is used only by later epilog equations."
 },
 "C36": {
  "status": "partial",
  "note": "Frame and failure behaviour proved for every model and option; with goal seeking the exchanged variables are excluded, because a counterexample shows their later values are overwritten."
 },
 "C35": {
  "status": "partial",
  "note": "Proved for every model of equations computed directly (own variable, no leads), thresholds below 10: prolog and epilog hold exactly, simultaneous updates within threshold/relaxation, successive updates nearby; exact with threshold 0. Counterexamples for successive updates, thresholds from 10, leads. Equations solved numerically are the subject of C31."
 },
 "C37": {
  "status": "partial",
  "note": "Search proved total, complete and sound (possible iff a chain of equations exists) on a model without earlier exchanges; the swap is right whenever the target ends up unsolved, in particular when the target's equation contains the exogenous variable or no other equation contains the target. Counterexamples: the target may remain solved for; a second exchange may throw."
 },
 "C38": {
  "status": "partial",
  "note": "Proved: an accepted set is executed in a valid order (all identities once, each after those its formula mentions), circular sets are rejected, sets for which the order of names is valid are accepted. The converse is false of the code: after the first pass placed identities stop the scan (continue without i++), so sets that are not circular are rejected (C38_acyclic_rejected_counterexample); when the first identity uses no other one, accepted sets are exactly those for which the order of names is valid."
 },
 "C39": {
  "status": "partial",
  "note": "Full for sets without scalars whose formulas read the defined variable at former periods only (sufficient criteria proved: no mention of itself, or negative lags only). Restriction needed: C39_reads_itself_counterexample (A = A + 1); identities with scalars can never be executed (C39_scalars_are_never_read). With files as sources the identities hold in the databases of the computation (first source having the series); reading the files themselves is C16-C20."
 },
 "C40": {
  "status": "partial",
  "note": "C40_series_partial and C40_workspace_partial: after the command every target period that is entirely in the file holds the aggregate (sum, mean, last) of exactly its sub-periods, every other target period up to the end of the last year is NA, other variables and periods keep their values; C40_exact gives the real sum and mean for exact arithmetic; C40_missing: one missing sub-period makes sum and mean missing. Partial: requires the number of periods per year to divide, and a yearly target or a source that starts with a target period; otherwise C40_misdated_counterexample (values stored in wrong periods), C40_overflow_counterexample and C40_days_to_weeks_counterexample (write behind the vector), C40_error_counterexample and C40_monthly_counterexample (null pointer on the error path)."
 },
 "C41": {
  "status": "partial",
  "note": "C41_round_trip_partial: with exact arithmetic, spreading by steps and aggregating (flow/sum, stock/last, stock/mean) gives back the value of every period, gaps included, and restores the whole series if it ends with a year; C41_stock_last_partial holds for any arithmetic; C41_spread_partial and C41_workspace_partial: every sub-period gets the share of the period it is part of, nothing else changes. Partial: the series must start with a year, the numbers of periods per year must divide, the target must have at most 32767 periods; exactness of rounded division is not claimed. C41_misdated_counterexample (start inside a year), C41_linear_stock_counterexample (out of bounds read for every series ending with two numbers), C41_linear_flow_counterexample (last value lost). Cubic splines are not modelled."
 },
 "C42": {
  "status": "partial",
  "note": "For exact arithmetic and every matrix: C42_rows (rows meet their targets exactly), C42_columns (columns within eps/(1-eps) of the absolute column sum), C42_columns_nonneg (within eps relatively, and non-negativity kept), C42_zero_rows, C42_biproportional (the result is the matrix with rows and columns multiplied by factors), C42_zero_cells, C42_balanced_unchanged; C42_command_partial: the command fills only missing cells of the current period and the totals of the workspace are met; C42_no_half_result: a failing command writes nothing. Partial: rounding is not modelled, eps < 1, names given by an injective function; targets 0 are skipped by the code, C42_zero_target_counterexample."
 },
 "C43": {
  "status": "partial",
  "note": "On token lists (lexer, PER and SUB left out): every well written sample with any nesting compiles to the columns it stands for, a repeated group to n*k*f columns in their places, a shift to the right moves all the periods alike, and whatever compiles has valid first periods and files. Left shifts of groups of several columns move columns in both directions (counterexample)."
 },
 "C44": {
  "status": "partial",
  "note": "Save/redefine/restore proved for every macro database without foreign saved names. Every structured report (nested loops, procedures) run by the line engine prints and defines what its scoped meaning says. Missing, each with a counterexample: loop directly inside a loop over the same variable (never ends), loop variable undefined in the body, return out of a loop, long loop names (endless or exception), arguments for a procedure without parameters (undefined). $goto, $if and values with special characters are not modelled."
 },
 "C45": {
  "status": "partial",
  "note": "Proved end to end (object to pack to file and back) for comments, lists, identities, scalars and variables. Equations: all but those with a non-ASCII comment, which cannot be saved (counterexample), and those whose sample starts in a year that is a multiple of 256, whose sample is lost (C45_equation_sample_lost)."
 },
 "C46": {
  "status": "partial",
  "note": "Proved for all tables whose cells have formulas that compile and texts without enclosing double quotes (one table: C46_pack, up to the settings of separator, mode, files and date lines; workspace file: C46_tables_partial). False for other cells and those settings (counterexamples). Comparison: a table equals itself iff both grids are the same (C46_equal_iff)."
 },
 "C47": {
  "status": "partial",
  "note": "Texts made of tokens, white space, comments and list references are read as these tokens, in one way only, up to the value of the formula. False of the code as a whole: reading a list reference changes the list, decimal numbers are rounded to single precision, long names are cut, some valid names cannot be used, comments before list references are errors, self-referring lists never end, long numbers overflow an array."
 },
 "C48": {
  "status": "partial",
  "note": "Proved for all texts laid out in the format, and for all databases whose names are neither reserved nor contain '#', with values of at most 1e308: sample and names are restored, values are rounded to 15 digits and then to the nearest double, exactly if they have 15 digits, and only once. Loading always ends. False of the code for the rest: names with '#', names that are key words of tables, infinity, the largest doubles, more than 15 digits, numbers of 255 characters."
 },
 "C49": {
  "status": "partial",
  "note": "Proved for all texts laid out in the format, and for all databases whose names do not contain '#' and whose texts have no tab, no '^' in front of a letter and (identities) no quotes: names are restored, texts are cut into lines, short texts and lists of several lines are restored exactly, a second save and load changes nothing (lists, identities), visible characters are kept. Loading always ends. False of the code for the rest: '^' and a letter, tabs, leading blanks, lines of comments, long words, names with '#', quotes in formulas, texts that cannot be converted."
 },
 "C50": {
  "status": "partial",
  "note": "Proved for numbers up to 1e308 and names without #. A missing value and a missing relaxation parameter come back as 0.9 and 1, more than 14 digits are lost, infinity becomes a name: see the counterexamples."
 },
 "C51": {
  "status": "partial",
  "note": "Proved for equations with a block that is not empty, formulas without quotes, and names without #. Tests at places that are not written, dates without a sample and comments with accents are lost or changed: see the counterexamples."
 },
 "C52": {
  "status": "partial",
  "note": "Proved for every layout (C52_load) and for tables with names that are not key words, settings from 0 to 127, finite bounds and titles that are texts. What is not written, lost, undefined or read forever is in the counterexamples."
 },
 "C53": {
  "status": "partial",
  "note": "Proved for every series and every length when the weight is zero or at least 2e-25. Smaller or negative weights and the values after a gap are in the counterexamples."
 },
 "C54": {
  "status": "partial",
  "note": "C54_inverse, C54_inverse_none and C54_positive hold without restriction for M_inv_1. For M_solve the full claim holds when no number compared with zero lies between zero and 1e-25 (C54_solve_partial), and without restriction for the same elimination with an exact test (C54_exact); otherwise it is false (counterexamples)."
 },
 "C55": {
  "status": "partial",
  "note": "Exact arithmetic, linear equations, relaxation parameters 0 or 1. Excluded: a solution with a coefficient below 1e-15, dependent residuals, convergence in the last iteration allowed, exactly one instrument, a pivot below 1e-25 (negations are proved for these). Method 4 and equations that are not linear are modelled but not covered."
 },
 "C56": {
  "status": "partial",
  "note": "Every successful estimation: residuals, covariances, standard error, R2 below 1, adjusted R2, F, Durbin-Watson in [0,4), correlations, positive definite covariances, likelihood with the determinant, degrees of freedom. R2 >= 0 and the standard errors s2(X'X)^-1 need the hypotheses of least squares on one linear equation (C55). Counterexamples: constant left hand side, negative R2 and F, F with one coefficient, uninitialised degrees of freedom."
 },
 "C57": {
  "status": "partial",
  "note": "Proved exactly when the position of a coefficient still denotes it (C57_position): no scalar created for a later equation may come before it. Under that condition all claims are proved; it holds for one equation, when all coefficients exist, and for a second estimation. Otherwise the claims are false: C57_lost_counterexample, C57_value_counterexample."
 },
 "C58": {
  "status": "partial",
  "note": "The estimation is a parameter: it is assumed (Repeatable) that the outcome for a combination does not depend on the combinations tried before and that it always leaves its test; C58_failed_counterexample shows what happens otherwise. Missing: equations with 31 coefficients or more or with names longer than 511 bytes in all, where the code is wrong (counterexamples)."
 },
 "C59": {
  "status": "partial",
  "note": "Exact conditions for a cell to show a number, for all operations. Missing, because the code is wrong there (counterexamples): mean growth between values of opposite signs, file numbers outside 1 to 5, divisors that do not link. Numbers are exact; pow is assumed to give roots."
 },
 "C60": {
  "status": "partial",
  "note": "Proved over exact real numbers for formulas that contain their first variable once under operations undone for every value, and divisors that are products or quotients: what changes, what is shown, and what is refused. Missing, because the code is wrong there (counterexamples): divisors that are sums, variables found twice or only lagged in editable cells, small values."
 },
 "C61": {
  "status": "partial",
  "note": "Which variables are aggregated and into which names, the sums, when names are refused and the effect on a workspace are proved in full. Products are proved where no value is missing (C61_product_partial), means where the pattern gives one aggregate (C61_mean_partial); both fail otherwise in the code, as do the default character, the blank and an empty sample (counterexamples)."
 },
 "C62": {
  "status": "proved",
  "note": "for every line made of closed pieces in a report that has not been shifted beyond its arguments (C62_line, C62_args, C62_call, C62_words, C62_quoted), any text when escaped (C62_escape, C62_plain); the lines on which the code differs from the manual are counterexamples"
 },
 "C63": {
  "status": "partial",
  "note": "What each kind of line does, jumps, calls, reactions to errors, restored arguments, joined lines, $repeat and the loop over the arguments proved for every system of commands. False of the code in the cases of the counterexamples (condition -1, fractions and missing values, QUIT, abort inside $repeat, long names, room of $repeat)."
 },
 "C64": {
  "status": "partial",
  "note": "Proved for texts and lists without quotes and with words of at most 128 characters (C64_words, C64_arguments, C64_exact, C64_unknown, C64_replaced) and for a quoted text of at most 127 characters (C64_quoted). Not so in general: see the counterexamples: empty quotes, quotes inside words and in lists, lists that contain themselves, files that do not exist, long words and names."
 },
 "C65": {
  "status": "partial",
  "note": "Proved for lists that exist, without quotes, nested at most ten deep (C65_calc, C65_unique, C65_refused, C65_sort, C65_count) and for patterns with two dimensions whose names fit when the list is new or the first combination exists (C65_pattern). Not so otherwise: see the counterexamples: unknown lists inside lists, repeated names in differences, combinations added to an old list, objects that do not exist, long names."
 },
 "C66": {
  "status": "partial",
  "note": "Proved for lists with valid and different names and fewer than 10000 names each, objects whose comparison is defined and a file that is not empty (C66_four, C66_lists), and what equal means for variables (C66_value, C66_eps, C66_variable, C66_variable_self), equations (C66_equation) and regular tables (C66_table). Not so otherwise: see the counterexamples: symmetry, samples, empty files, names of lists, comments and tests of equations, grids of tables."
 },
 "C67": {
  "status": "partial",
  "note": "Exact arithmetic; at the level of the functions, not of the texts of formulas. covar0 differs from the manual; acf of a constant and app with a related series that is zero at the known value give no number instead of the missing value: counterexamples."
 },
 "C68": {
  "status": "partial",
  "note": "Proved for every search whose formulas are there and whose names are valid (C68_scan, C68_equations, C68_tables; names read by the lexer are valid: C68_word). A cell without formula makes the search fail; the manual promises also the variables that are left out: counterexamples."
 },
 "C69": {
  "status": "partial",
  "note": "The claim holds for the calls described; the code deviates from the manual for short texts, empty texts and arguments, negative numbers in formats, the separators of results and calls without elements, as the counterexamples show."
 },
 "C70": {
  "status": "partial",
  "note": "Proved for sides that are not broken up by the text put around them: the right side without comparisons outside parentheses, the left side of an error correction without sums outside parentheses, no comment or semicolon at the end; the other cases give other equations (C70_priority_counterexample, C70_text_counterexample). Names of coefficients of at most 20 characters."
 },
 "C71": {
  "status": "partial",
  "note": "Proved for names of lists of at most 15 characters none of which starts with another one and models of at most a million equations; for model_simulate_SCC only with a non-empty prolog and block (otherwise C71_empty_undefined)."
 },
 "C72": {
  "status": "partial",
  "note": "Ascii variables and comments are proved for patterns made of *, ? and ordinary characters without a final run of stars; the other formats and the version of import_var with periods do not do what is stated (counterexamples)."
 },
 "C73": {
  "status": "partial",
  "note": "CSV, rotated CSV and DIF files hold the table they should for a separator that is a visible mark in no name, number, comment or missing text; numbers within half a unit of the 8th digit; another sample gives the image of the database; without rules own names; save_csv without a sample. False of the code: blank separators, DIF row count and creation failure, comments with separators or lines, -1e37, missing variables file and export_as with periods (null pointers), save_csv without settings, with a sample, or with more than 15 digits. TSP, WKS and GNUPlot are not modelled."
 },
 "C74": {
  "status": "partial",
  "note": "Patterns of $DataDelete, $DataList and $DataSearch are those of C23 (no runs of stars, no special characters). Comments are covered for updates and appended texts; the loops over names for the other types. Several claims do not hold of the code in corner cases, see the counterexamples."
 },
 "C75": {
  "status": "partial",
  "note": "Proved for all reachable states, for values that are not written before they are read (another variable, or a range that does not begin in front of the one written, or ends in front of it). False without it: C75_overlap_counterexample; also C75_missing_counterexample, C75_add_first_counterexample, C75_one_var_short_undefined. A variable added to a subset is not covered by C75_add."
 },
 "C76": {
  "status": "partial",
  "note": "Proved for names that exist, methods 0-127 and names of less than 16 characters; two separators in a row, other methods, longer names and a name with nothing behind it are shown to do something else or to be undefined."
 },
 "C77": {
  "status": "partial",
  "note": "Proved for every outcome of the estimations when the equations of the blocks are in the database that is estimated; otherwise members lose their texts (C77_member_counterexample), and a block with an unknown name is undefined. The estimation itself is in C54-C57."
 },
 "C78": {
  "status": "partial",
  "note": "The estimation itself is a parameter (see C77 and the theorems on estimation); objects of the user with the names of the test are lost, the variable _DF stays, orders from 59 on are undefined."
 },
 "C79": {
  "status": "partial",
  "note": "Proved: the block, its text and the current equation always agree; without save only results and missing coefficients are new in the workspaces; what an estimation asks for and where its results are; what save writes; saved first, the session's own LECs are estimated. False, shown by counterexamples: LECs edited in the session are estimated (the workspace's are, and they overwrite the edit); an estimation of a new equation (undefined); the mark of an estimation after the block has changed; coefficients shared with an equation outside the block; estimations after a save leave the workspace alone."
 },
 "C80": {
  "status": "partial",
  "note": "Sums of flows, values of stocks and the curve are proved where the code computes them; the first period of a run, the last periods and series with leading missing values or gaps are counterexamples. Exact arithmetic."
 },
 "C81": {
  "status": "partial",
  "note": "Proved for the whole years at the end of the first run of numbers; series that are not seasonal stay only when they are nowhere negative. Counterexamples for negative series, runs shorter than a year, constant quarterly series and outliers; less than three years of a seasonal series are undefined. Arguments and sample are not modelled."
 },
 "C82": {
  "status": "partial",
  "note": "Proved for every file with one period and any rules. Files with more than one period crash the reader (C82_periods_undefined), as do files without rows (C82_rows_undefined) and texts for values (C82_text_undefined); exported DIF files are refused (C82_export_counterexample)."
 },
 "C83": {
  "status": "partial",
  "note": "Proved for all disks, arguments and sequences of commands: what each command does to the files it names, that other files stay, and that failed commands change nothing (but for the conversions between OEM and ANSI). Copies of databases are undefined, $FileDelete works with two names only, a copy onto itself empties the file: stated as theorems."
 },
 "C84": {
  "status": "partial",
  "note": "Proved for all files of ASCII and the letters of the languages around here; $SysAnsiToOem without three letters. The wrong entries of the tables are counterexamples; some output depends on uninitialised memory."
 },
 "C85": {
  "status": "partial",
  "note": "Proved for comments, lists, identities, scalars and variables, for all packs with words of 2 bytes and all files made of them. Equations and tables are not modelled, but for the formulas in cells, which are lost (a counterexample)."
 },
 "C86": {
  "status": "partial",
  "note": "Proved for all workspaces, names and formulas, but that a failure changes nothing: a variable that was missing has then been created (a counterexample)."
 },
 "C87": {
  "status": "partial",
  "note": "Proved for regular histories (C11) and samples of at most 32767 periods (C12); names given as patterns are in C23. Counterexamples for years with leading zeros and repeated separators; a method with one period is undefined."
 },
 "C88": {
  "status": "partial",
  "note": "All argument texts with two periods and readable lists for the simulation, the block simulation and its computation, and the parameters. $IdtExecute takes all identities when a list does not exist (counterexample), so its theorem covers texts whose lists exist; empty lists stand for everything (counterexample)."
 },
 "C89": {
  "status": "partial",
  "note": "All texts with names, all files and workspaces, under the alignment conditions of C40 and C41; the case of C41 that is missing there is missing here. Without names, sample or file the commands are undefined; ascii files ignore the names (counterexamples)."
 },
 "C90": {
  "status": "partial",
  "note": "Sample, operations on files, periods, values and names, for all columns of one periodicity less than 32767 periods apart. Columns with the same period and files are not kept apart, nor are lines with the same name (counterexamples); the theorems say what counts then or exclude it."
 },
 "C91": {
  "status": "partial",
  "note": "Words, formats, refusals and traces are proved for words of visible characters and files that can be written. False of the code and proved so: Bistel cannot be named, unknown formats are ascii, a failed save is a success, the trace stays open after wrong periods. The readers of formats other than ascii and DIF are a parameter."
 },
 "C92": {
  "status": "partial",
  "note": "Header, order, values and line lengths are proved for yearly, quarterly and monthly samples and values whose texts fit in a line; for other periodicities the header has no sample (proved so). Not proved: that every text of a value is shorter than a line. Samples without periods are left out."
 }
}