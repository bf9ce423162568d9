{"id": "C01", "title": "Shifting a period and measuring distances are inverse operations", "statement": "For a well-formed period p and any integer n, p.shift(n) is well-formed (1 <= step <= periods per year, same periodicity), p.shift(n).difference(p) = n, shifts add up (shift(a) then shift(b) = shift(a+b)), and p.shift(q.difference(p)) = q for q of the same periodicity.", "quantifier": "all periodicities, all years and steps, all shift counts (positive and negative)", "why_tests_cant": "The carry/borrow arithmetic across year boundaries must hold for unboundedly many shifts and six periodicities; tests sample a few.", "anchors": ["api/time/period.h: Period::shift, Period::difference"]}
{"id": "C02", "title": "A period survives being printed and read back, and reading only yields periods that exist", "statement": "Writing a well-formed period with a 4-digit year in 1000..9999 as text and parsing the text yields the same period; every period accepted by the parser has a valid periodicity and a step between 1 and the number of periods per year.", "quantifier": "all periods; all input strings", "why_tests_cant": "Infinitely many strings; the accepting set must be characterised, not sampled.", "anchors": ["api/time/period.h: Period::Period(std::string), Period::to_string"]}
{"id": "C03", "title": "A sample enumerates its periods without gaps", "statement": "A sample built from start and end (end not before start) has nb_periods = end - start + 1, its list of periods is start, start+1, ..., end in order without repetition, the i-th period has position i, and a period outside the sample has no position.", "quantifier": "all pairs of periods of the same periodicity", "why_tests_cant": "Length is unbounded; counts are stored in 16 bits, so the claim depends on the size.", "anchors": ["api/time/sample.h: Sample::Sample, get_period_position, get_list_periods"]}
{"id": "C04", "title": "Sample intersection is set intersection", "statement": "The intersection of two samples of the same periodicity contains exactly the periods contained in both; the operation reports an error exactly when no period is shared or the periodicities differ.", "quantifier": "all pairs of samples", "why_tests_cant": "Quantifies over all pairs of samples and all periods.", "anchors": ["api/time/sample.h: Sample::intersection"]}
{"id": "C05", "title": "A workspace behaves as a finite map from names to objects", "statement": "After any sequence of set/add/update/remove/rename/clear calls on a standalone workspace, looking a name up returns the object last stored under that (case-normalised) name, and names that were removed or renamed away are absent; failed calls change nothing.", "quantifier": "all histories of operations, all names, all object values", "why_tests_cant": "Histories are unbounded; every interleaving of operations must be covered.", "anchors": ["api/objs/kdb.h: KDBTemplate::set_obj_ptr, add, update, remove, rename, clear, get_obj_ptr, contains"]}
{"id": "C06", "title": "A subset always shows the same object as the workspace it was taken from", "statement": "At every point of any history of operations on a workspace and on its (shallow) subsets, each name in a subset is in the parent workspace and denotes the same object there.", "quantifier": "all histories over one workspace and any number of subsets", "why_tests_cant": "Sharing invariants depend on the whole history of set/rename/remove/merge through either view.", "anchors": ["api/objs/kdb.h: set_obj_ptr_no_check, get_subset, rename, remove, merge, clear"]}
{"id": "C07", "title": "Removing or renaming a name makes the old name disappear", "statement": "If remove(name) reports success then the workspace no longer contains name; if rename(a,b) succeeds then a is no longer contained (unless a and b are the same name).", "quantifier": "all workspaces of all object types, all names", "why_tests_cant": "Comments are looked up case-insensitively while other types are not; the claim ranges over all key spellings.", "anchors": ["api/objs/kdb.h: contains, get_key, remove, rename"]}
{"id": "C08", "title": "Only valid names are ever stored", "statement": "After any history of operations, every name of a workspace is non-empty, at most 20 characters long and made of the characters allowed for its object type, in the case of that type.", "quantifier": "all histories, all input names", "why_tests_cant": "Must hold for all strings passed to all entry points.", "anchors": ["api/utils/utils.h: check_name", "api/objs/kdb.h: to_key, set_obj_ptr, rename, add"]}
{"id": "C09", "title": "A deep copy is independent of its origin", "statement": "After taking a deep copy (copy=true subset), no later operation on the copy changes the origin and no later operation on the origin changes the copy.", "quantifier": "all later histories on either side", "why_tests_cant": "Non-interference ranges over all future operations.", "anchors": ["api/objs/kdb.h: get_subset(copy=true), copy constructor"]}
{"id": "C10", "title": "An overwriting merge keeps every other name and takes the source's objects", "statement": "merge(other, overwrite) leaves names absent from other untouched; names of other get other's object when overwrite is true or when absent before, and keep the old object otherwise.", "quantifier": "all pairs of workspaces", "why_tests_cant": "Quantifies over all pairs of maps.", "anchors": ["api/objs/kdb.h: KDBTemplate::merge, merge_from"]}
{"id": "C11", "title": "Every variable has exactly one value per period of the sample", "statement": "After any history of creating variables, changing the sample, merging and clearing, each variable of a variables workspace has length nb_periods of the sample.", "quantifier": "all histories", "why_tests_cant": "Invariant over unbounded histories of resizing and merging.", "anchors": ["api/objs/variables.h, api/objs/k_wsvar.cpp: KDBVariables::set_obj_ptr, set_sample, KV_merge"]}
{"id": "C12", "title": "Changing the sample keeps the values of the periods that stay", "statement": "set_sample(new) keeps, for each variable, the value of every period belonging to both samples, sets all other periods of the new sample to NA, and does not change the workspace when it fails.", "quantifier": "all workspaces, all pairs of samples", "why_tests_cant": "Offsets depend on both samples; every relative position must be covered.", "anchors": ["api/objs/variables.h, api/objs/k_wsvar.cpp: KDBVariables::set_sample"]}
{"id": "C13", "title": "Merging variables aligns values on calendar periods", "statement": "KV_merge(db1, db2, replace) copies into db1, for every variable of db2 that is new or to be replaced, the value db2 has at the same calendar period for all shared periods; other periods of db1 are unchanged (existing variable) or NA (new variable).", "quantifier": "all pairs of variables workspaces and samples", "why_tests_cant": "Ranges over all sample alignments and all values.", "anchors": ["api/objs/k_wsvar.cpp: KV_merge"]}
{"id": "C14", "title": "Entering a growth rate or difference and reading it back gives the entered number", "statement": "For each of the modes level, difference, growth, year-on-year difference and year-on-year growth, storing x at a period in that mode and reading the period in the same mode returns x, whenever the reference value exists and is not zero (growth modes).", "quantifier": "all variables, periods, modes and values (exact arithmetic)", "why_tests_cant": "Holds for all reals, not samples.", "anchors": ["api/objs/k_wsvar.cpp: KV_get, KV_set"]}
{"id": "C15", "title": "Extrapolation only fills the gaps it is allowed to fill", "statement": "KV_extrapolate with any method leaves every period outside the requested sample untouched, and with the *_NA/'if NA' style methods never changes a value that is already a number; the filled values follow the method's recurrence.", "quantifier": "all variables, samples, methods", "why_tests_cant": "Recurrence over unbounded numbers of periods.", "anchors": ["api/objs/k_wsvar.cpp: KV_extrapolate, KV_init_values_1"]}
{"id": "C16", "title": "Packed objects give back exactly the pieces put in", "statement": "After packing any sequence of byte blocks, the pack reports the right number of blocks and reading block i returns the i-th block (followed by padding to a multiple of four).", "quantifier": "all sequences of byte blocks", "why_tests_cant": "Unbounded number and size of blocks; offsets are rewritten at each append.", "anchors": ["api/objs/pack.cpp: P_create, P_add, P_get_ptr, P_get_len, P_nb"]}
{"id": "C17", "title": "Saved objects are read back unchanged", "statement": "For every sequence of objects, writing the length-prefixed (possibly compressed) records and reading them back yields the same byte strings, provided the compressor is lossless.", "quantifier": "all sequences of byte strings, any lossless compressor", "why_tests_cant": "Ranges over all contents and lengths, including the threshold between compressed and raw records.", "anchors": ["api/objs/k_objfile.cpp: K_cwrite, save_binary, load_binary"]}
{"id": "C18", "title": "Loading a list of names from a file loads these names' objects", "statement": "Loading a selection of names from a binary file stores, under each requested name present in the file, the object the file holds under that name, and reports names that are absent.", "quantifier": "all files and all lists of names", "why_tests_cant": "Binary search over all sorted name tables.", "anchors": ["api/objs/k_objfile.cpp: KDB::load_binary, index_of_name"]}
{"id": "C19", "title": "A variables file restores its sample", "statement": "Saving a variables workspace with a sample and loading the file gives back the same sample.", "quantifier": "all samples", "why_tests_cant": "Depends on the byte representation of the start year.", "anchors": ["api/objs/k_objfile.cpp: KDBVariables::preload, predump"]}
{"id": "C20", "title": "A crash while saving never destroys both the old and the new version", "statement": "If the previous version was complete on disk, then at every crash point during a save either the file itself or its backup holds a complete version, provided the backup copy succeeded.", "quantifier": "all crash points of a save, all histories of saves", "why_tests_cant": "Crash points cannot be enumerated by unit tests.", "anchors": ["api/objs/k_objfile.cpp: take_backup, save, save_binary"]}
{"id": "C21", "title": "Splitting a long list into sub-lists loses nothing", "statement": "Storing a list of names in chunks and expanding it again gives the same names in the same order.", "quantifier": "all lists of names and chunk sizes", "why_tests_cant": "Unbounded lists; recursion depth grows with the list.", "anchors": ["api/objs/k_lst.cpp: KL_lst, KL_expand"]}
{"id": "C22", "title": "The first file in the list has priority", "statement": "copy_from(files, names) stores for each requested name the object from the first file containing it.", "quantifier": "all lists of files and names", "why_tests_cant": "Ranges over all families of workspaces.", "anchors": ["api/objs/k_kdb.cpp: KDB::copy_from", "api/objs/kdb.h: copy_from_file"]}
{"id": "C23", "title": "Wildcard search finds exactly the matching names", "statement": "A pattern matches a name exactly when the name can be cut so that each '*' stands for some (possibly empty) sequence and each '?' for one character, other characters standing for themselves up to case.", "quantifier": "all patterns and all names", "why_tests_cant": "Infinitely many patterns; backtracking search.", "anchors": ["scr4/s_stgrep.c: SCR_grep_1", "api/objs/k_grep.cpp: KDB::grep, expand"]}
{"id": "C24", "title": "A formula is computed according to its written structure", "statement": "Compiling the text of any LEC expression built from numbers, variables, coefficients, binary operators, unary minus/plus, functions and parentheses and evaluating the result gives the value of the expression read with the documented precedence (or < and < comparisons < +,- < *,/ < ^, left-associative, functions and unary signs binding tightest).", "quantifier": "all expressions, all values, all periods", "why_tests_cant": "Infinitely many expressions; compositional proof needed.", "anchors": ["api/lec/l_compile.cpp: generate_lec_expression", "api/lec/l_exec.cpp: L_exec_sub", "api/lec/l_exec_ops.h"]}
{"id": "C25", "title": "Malformed formulas are rejected, never mis-evaluated", "statement": "A token sequence with unbalanced parentheses, a missing operand or a missing operator is rejected with an error; every accepted sequence evaluates without stack underflow and leaves exactly one value.", "quantifier": "all token sequences", "why_tests_cant": "All (also ill-formed) inputs must be considered.", "anchors": ["api/lec/l_compile.cpp: generate_lec_expression", "api/lec/l_exec.cpp"]}
{"id": "C26", "title": "Missing values propagate", "statement": "The value of an operator applied to NA is NA; a formula made of operators and ordinary functions in which some variable read is NA yields NA; a formula without lags applied to numbers in the domain of its operators yields a number.", "quantifier": "all expressions and environments", "why_tests_cant": "Compositional over all expressions.", "anchors": ["api/lec/l_exec_ops.cpp", "api/lec/l_exec_fns.h", "api/lec/l_exec.cpp"]}
{"id": "C27", "title": "Lagging a formula equals evaluating it in the past", "statement": "For every expression e, the value of (e)[-n] at t equals the value of e at t-n (absolute-period operands and 't' excepted).", "quantifier": "all expressions, all lags, all t", "why_tests_cant": "Compositional; nested lags add up.", "anchors": ["api/lec/l_compile.cpp: L_lag_expr, L_sub_expr", "api/lec/l_link.cpp: L_link_sample"]}
{"id": "C28", "title": "Built-in functions compute what the manual says", "statement": "For exact numbers: max, min, lsum, lprod, lmean, abs, sign, int, floor, ceil, round, isan, the time functions l, d, r, grt, ma and the functions over a range sum, prod, mean, vmax, vmin, lastobs, stderr have the value given by the LEC manual; if(c,a,b) returns a when c is non-zero and b otherwise; log(b,x) is the logarithm of x in base b; div0(a,b) = a/b with 0 when b is 0; lcount is the number of expressions.", "quantifier": "all argument values and series", "why_tests_cant": "Ranges over all numbers, all series and all enclosing expressions.", "anchors": ["api/lec/l_exec_fns.cpp", "api/lec/l_exec_tfn.cpp", "doc/source/lec_language.rst"]}
{"id": "C29", "title": "The value of a formula depends only on what it mentions", "statement": "Two workspaces agreeing on all variables and coefficients listed in the compiled formula give the same value, and evaluation does not change any workspace.", "quantifier": "all formulas and pairs of workspaces", "why_tests_cant": "Non-interference property over all states.", "anchors": ["api/lec/l_exec.cpp", "api/lec/l_link.cpp"]}
{"id": "C30", "title": "Solving an equation for its variable gives a root of the equation", "statement": "When an equation is inverted analytically for one variable, the produced formula evaluated with the other variables yields a value of that variable for which left-hand side equals right-hand side (exact real arithmetic, inside the domains of the functions).", "quantifier": "all equations with exactly one current-period occurrence of the variable", "why_tests_cant": "Ranges over all expression trees and values.", "anchors": ["api/lec/l_eqs.cpp: L_invert, L_split_expr"]}
{"id": "C31", "title": "Newton's method answers with a root or leaves the variable untouched", "statement": "If the numerical solver reports a value x then the residual at x is below the tolerance; if it fails, the variable has its old value again.", "quantifier": "all functions, starting values and tolerances", "why_tests_cant": "Ranges over all (also discontinuous) functions.", "anchors": ["api/lec/l_newton.cpp: L_newton, L_newton_sub"]}
{"id": "C32", "title": "Reordering a model neither loses nor duplicates equations", "statement": "The execution order computed for any model contains every equation exactly once, for every sort option and number of triangulation passes.", "quantifier": "all models (dependency graphs)", "why_tests_cant": "All graphs on any number of equations.", "anchors": ["api/simulation/k_sim_order.cpp"]}
{"id": "C33", "title": "Prolog equations only need earlier results", "statement": "Every equation placed in the prolog depends, among endogenous variables of other equations, only on equations placed earlier in the prolog.", "quantifier": "all models", "why_tests_cant": "All graphs.", "anchors": ["api/simulation/k_sim_order.cpp: build_pre_post_list, pre_order"]}
{"id": "C34", "title": "Epilog equations feed nobody before them", "statement": "No equation of the prolog, of the interdependent block or earlier in the epilog depends on an equation of the epilog.", "quantifier": "all models", "why_tests_cant": "All graphs.", "anchors": ["api/simulation/k_sim_order.cpp"]}
{"id": "C35", "title": "A reported convergence means the equations hold", "statement": "When a period is reported as solved, every prolog and epilog equation holds exactly at the stored values and every interdependent equation holds within the convergence threshold divided by the relaxation factor (simultaneous update).", "quantifier": "all models, values, thresholds, iteration limits", "why_tests_cant": "Ranges over all models and iterations.", "anchors": ["api/simulation/k_sim_main.cpp: sub_simulate, interdep"]}
{"id": "C36", "title": "Simulating never touches exogenous variables or other periods", "statement": "A simulation over [from,to] changes only endogenous variables and only at the simulated periods; when it fails at a period, results of earlier periods are kept and later periods are untouched.", "quantifier": "all models, samples, failure points", "why_tests_cant": "All executions including failing ones.", "anchors": ["api/simulation/k_sim_main.cpp: simulate, sub_simulate"]}
{"id": "C37", "title": "Goal seeking swaps exactly the requested variables", "statement": "After exchanging endogenous y with exogenous x, the variables solved for are the old endogenous ones with y replaced by x, each solved by exactly one equation that contains it.", "quantifier": "all models and exchange pairs", "why_tests_cant": "Depth-first search over all graphs.", "anchors": ["api/simulation/k_sim_exo2endo.cpp"]}
{"id": "C38", "title": "Identities are executed in a valid order whenever one exists", "statement": "If the set of identities has no circular definition then it is accepted and each identity is computed after the identities it uses; a circular set is rejected.", "quantifier": "all finite sets of identities", "why_tests_cant": "All dependency graphs.", "anchors": ["api/k_exec.cpp: KI_reorder, KI_exec"]}
{"id": "C39", "title": "Executing identities computes their definitions and nothing else", "statement": "After a successful execution over a sample, each computed variable equals its definition evaluated at the final values for each period of the sample, and keeps its former value (or NA) elsewhere.", "quantifier": "all identity sets, samples, values", "why_tests_cant": "All executions.", "anchors": ["api/k_exec.cpp: KI_execute, KI_read_vars, KI_quick_extract"]}
{"id": "C40", "title": "High-to-low conversion aggregates the right sub-periods", "statement": "Converting a high-periodicity series stores, for each target period all of whose sub-periods are in the source, the sum/mean/last of the values of exactly these sub-periods (NA if one is missing).", "quantifier": "all source samples, all periodicity pairs", "why_tests_cant": "All alignments of the source start.", "anchors": ["api/report/commands/b_htol.cpp: HTOL_smpl, B_htol"]}
{"id": "C41", "title": "Low-to-high then high-to-low is the identity", "statement": "Spreading a series over sub-periods by steps and aggregating it back (flow with sum, stock with last or mean) restores the series.", "quantifier": "all series, all ratios", "why_tests_cant": "All lengths, values and gap patterns.", "anchors": ["api/report/commands/b_ltoh.cpp: LTOH_step", "api/report/commands/b_htol.cpp: B_htol"]}
{"id": "C42", "title": "RAS balancing reaches the row totals and approximates the column totals", "statement": "When RAS reports convergence, every row with a non-zero target adds up to its target and every column with a non-zero target is within eps (relatively) of its target, for non-negative matrices.", "quantifier": "all matrices, targets, thresholds", "why_tests_cant": "All matrices.", "anchors": ["api/report/commands/b_ras.cpp: RasCalc"]}
{"id": "C43", "title": "A generalised sample expands to the product of its parts", "statement": "Compiling a group with k columns, repeated n times over f file references yields n*k*f columns, the i-th repetition shifted by i increments; a shift suffix on a group moves every column of the group in the same direction.", "quantifier": "all groups, repetition counts, increments, shifts", "why_tests_cant": "Unbounded nesting and counts.", "anchors": ["api/gsample/c_cc.cpp: COL_construct, COL_shift, COL_read_cols"]}
{"id": "C44", "title": "Loop variables of reports are restored after the loop", "statement": "Saving a macro, redefining it any number of times (also in nested loops over the same macro) and restoring it gives back the definition it had at the save, or its absence. Hence after a $foreach loop its variable, and after a procedure call the formal parameters, are what they were before.", "quantifier": "all nestings of loops and calls, all macro values", "why_tests_cant": "All nesting depths and all reports.", "anchors": ["api/report/engine/b_rep_defs.cpp: RP_define_save, RP_define_restore, RP_define_calcdepth", "api/report/engine/b_rep_foreach.cpp: RP_foreach, RP_foreach_next", "api/report/engine/b_rep_proc.cpp: RP_procexec"]}
{"id": "C45", "title": "An object survives being saved in binary format", "statement": "Saving a workspace of comments, lists, identities, scalars, variables or equations in a binary file and loading the file gives the same objects: texts, formulas, values, estimation method, sample, date and tests.", "quantifier": "all workspaces, all objects whose texts the code page can represent, both sizes of long, all padding bytes and buffers", "why_tests_cant": "All object contents and all uninitialised padding bytes; tests use a few files.", "anchors": ["api/objs/k_cmt.cpp, k_lst.cpp, k_idt.cpp, k_scl.cpp, k_wsvar.cpp: binary_to_obj, obj_to_binary", "api/objs/k_eqs.cpp: Equation::to_binary, binary_to_eqs"]}
{"id": "C46", "title": "A table survives being saved in binary format", "statement": "Saving a workspace of tables in a binary file and loading the file gives the same tables: language, columns, every line with its type, settings, texts and formulas, the graph settings and axes. Comparing a table with itself answers that they are equal.", "quantifier": "all tables with any number of columns and lines, both sizes of long, all padding bytes and buffers", "why_tests_cant": "All numbers of lines and columns, all contents and all uninitialised padding bytes.", "anchors": ["api/objs/k_tbl.cpp: KDBTables::obj_to_binary, binary_to_tbl", "api/objs/tables.h: operator=="]}
{"id": "C47", "title": "A formula is read token by token as it is written", "statement": "The text of a formula is cut into exactly the tokens it is written with: operators, key words, names, whole numbers, decimal numbers, periods. White space and comments between tokens do not matter, a text has only one reading, a reference $LIST stands for the content of the list, and reading a formula changes nothing in the workspace.", "quantifier": "all texts made of any number of tokens, white space, comments and list references", "why_tests_cant": "All texts and all contents of lists.", "anchors": ["api/lec/l_token.cpp: L_get_token, L_get_int, L_macro, L_string", "scr4/s_yread.c: YY_read", "scr4/s_ylex.c: YY_lex, YY_find_oper", "scr4/s_ybase.c: YY_getc, YY_ungetc, YY_record"]}
{"id": "C48", "title": "Variables are restored from their text form", "statement": "Saving variables in a text file and loading the file gives the same sample, the same names and the same values up to 15 significant digits; values that have at most 15 digits, and missing values, are restored exactly, and a second save and load changes nothing. Any text of a sample, names, numbers and na, with white space and comments between them, is read as written: the last definition of a name counts, missing values complete it, values too many are dropped.", "quantifier": "all samples, names, values (doubles, exactly), all layouts of the text", "why_tests_cant": "All values of type double and all layouts of the file.", "anchors": ["api/ascii/k_ccvar.cpp: read_vec, load_yy, print_val, save_asc", "api/utils/yy.cpp: K_read_real, K_read_per, K_read_smpl", "scr4/s_yread.c: YY_read, YY_unread"]}
{"id": "C49", "title": "Comments, lists and identities are restored from their text form", "statement": "Saving comments, lists or identities in a text file and loading the file gives the same names with the same texts cut into lines of at most 60 characters, behind a separator where there is one; no visible character is lost or added, short texts are restored exactly, and lists and identities are not changed any more by a second save and load. Any text of names and strings with white space and comments between them is read as written; the last definition of a name counts. Loading ends for every file.", "quantifier": "all workspaces of comments, lists and identities, all layouts of the text, all conversions between code pages", "why_tests_cant": "All texts, lengths of lines and layouts of the file.", "anchors": ["api/ascii/k_cccmt.cpp, k_cclst.cpp, k_ccidt.cpp: load_asc, save_asc", "api/utils/yy.cpp: K_wrap", "scr4/s_sttext.c: SCR_text", "scr4/s_stdhex.c: SCR_fprintf_esc"]}
{"id": "C50", "title": "Scalars are restored from their text form", "statement": "Saving scalars in a text file and loading the file gives the same names with the same values, relaxation parameters and standard errors up to 14 significant digits; numbers of at most 14 digits and missing standard errors are restored exactly, and a second save and load changes nothing. Any text of names and at most three numbers each, with white space and comments between them, is read as written: a value left out or missing is 0.9, a relaxation parameter 1; the last definition of a name counts. Loading ends for every file.", "quantifier": "all workspaces of scalars (doubles, exactly), all layouts of the text", "why_tests_cant": "All values of type double and all layouts of the file.", "anchors": ["api/ascii/k_ccscl.cpp: read_scl, load_asc, print_scl, save_asc", "api/utils/yy.cpp: K_read_real"]}
{"id": "C51", "title": "Equations are restored from their text form", "statement": "Saving equations in a text file and loading the file gives the same names with the same formula (cut into lines of at most 60 characters), method, block, comment, instruments, sample, date, and the tests that are written up to 8 significant digits; equations with short formulas and tests that are the single precision number next to one of 8 digits are restored exactly, and a second save and load changes nothing. Any text of names with a formula, or with a formula and any entries between braces, with white space and comments between them, is read as written: of entries and of names the last one counts. Loading ends for every file.", "quantifier": "all workspaces of equations, all layouts of the text, all compilers of formulas, all conversions between code pages", "why_tests_cant": "All formulas, all values of type float and all layouts of the file.", "anchors": ["api/ascii/k_cceqs.cpp: read_eq, load_asc, print_eq, save_asc", "api/utils/yy.cpp: K_read_long, K_read_str, K_read_smpl, K_wrap", "api/objs/equations.h: Equation, set_lec, set_sample, set_comment"]}
{"id": "C52", "title": "Tables are restored from their text form", "statement": "Saving tables in a text file and loading the file gives the same names, each with the same columns, language, alignment, grids, box and axis, the same lines and dividers with their texts, formulas, alignments and fonts; the bounds of the axes are the same when they are 16 or more and within a millionth otherwise. Tables whose texts have no quotes at their ends, whose formulas compile, whose graphs are lines or bars and whose bounds are large or have at most six decimals are restored exactly, and a second save and load changes nothing. Any text of names with settings, dividers and lines between braces, in any order and with white space and comments between them, is read as written: of settings and of names the last one counts.", "quantifier": "all workspaces of tables, all layouts of the text, all compilers of formulas, all conversions between code pages", "why_tests_cant": "All numbers of columns and lines, all texts of cells, all values of type float and all layouts of the file.", "anchors": ["api/ascii/k_cctbl.cpp: read_cell, read_div, read_line, read_tbl, load_asc, print_cell, print_tbl, save_asc", "api/utils/yy.cpp: K_read_align, K_wrdef", "api/objs/k_tbl.cpp: TableCell::set_text, set_lec"]}
{"id": "C53", "title": "The Hodrick-Prescott filter gives the trend of the series", "statement": "When the first known values of a series are four or more in a row, the filter gives over these values the only series that minimises the sum of the squared differences plus the weight times the sum of the squared changes of slope, and no value anywhere else; with logarithms, the exponential of the trend of the logarithms, and nothing at all when one of the values is not positive. With fewer than four values there is no result. In a formula the value at a period is that of the filter over the periods from the first to the last, when there are at least five values. The trend has the sum and the first moment of the series; a straight line is its own trend, and so is any series when the weight is zero.", "quantifier": "all series, all positions of the missing values, all lengths, all weights that are zero or at least 2e-25", "why_tests_cant": "A minimum over all series of a given length, for every length and every weight; the elimination is followed on a matrix of unbounded size.", "anchors": ["api/lec/l_hodrick.cpp: HP_calc, HP_test", "api/lec/l_exec_mtfn.cpp: L_hpall, L_hp, L_hpstd", "api/report/undoc/b_trend.cpp: B_WsTrendAll", "scr4/s_masol.c: M_solve"]}
{"id": "C54", "title": "Linear systems are solved and matrices are inverted", "statement": "Solving a linear system fails exactly when its columns are dependent and otherwise returns the only solution. The inverse returned for a matrix is its inverse on both sides, and the product with a right hand side is the only solution of the system; nothing is returned exactly when one of the blocks in the upper left corner is singular, hence never for a positive definite matrix.", "quantifier": "all dimensions, all matrices, all right hand sides", "why_tests_cant": "All dimensions and all matrices over any ordered field, singular ones included.", "anchors": ["scr4/s_masol.c: M_solve, M_gel_ut, M_gel_pivot, M_bw_sub", "scr4/s_mainv.c: M_inv_1", "scr4/s_maro.c: M_ero_sw, M_ero_ma", "scr4/s_mat.h: ZERO"]}
{"id": "C55", "title": "An estimation returns the coefficients that minimise its criterion", "statement": "Estimating equations that are linear in their coefficients returns, from any starting values and leaving the coefficients with a zero relaxation parameter as they are, the only coefficients that minimise the criterion of the method: the sum of the squared residuals of all equations (least squares), the same after regressing the residuals on the instruments and the constant (instrumental variables), or the sum of their products over all pairs of equations weighted by the inverse covariances of the residuals of the first stage (Zellner, three stages). The covariances from which the standard errors come are the inverse of the matrix of the criterion. Estimation fails when the columns are dependent, leaving the coefficients as they were.", "quantifier": "all blocks of linear equations: any number of equations, coefficients, periods, instruments, any starting values", "why_tests_cant": "A minimum over all coefficients, for all dimensions and data, reached by an iteration with a numerical Jacobian.", "anchors": ["api/estimation/e_est.cpp: E_gls, E_c_gmg, E_c_gmu, E_jacobian, E_testcv, E_adaptcoef", "api/estimation/e_prep.cpp: E_prep_instrs, E_prep_coefs, E_get_C", "scr4/s_masol.c: M_solve", "scr4/s_mainv.c: M_inv_1"]}
{"id": "C56", "title": "The statistics of an estimation are those of its residuals", "statement": "Whenever an estimation succeeds, whatever the method and the equations: the residuals are the left hand sides less the right hand sides at the coefficients returned; the covariances, the sum of squares, the standard error, R², adjusted R², the F statistic and the Durbin-Watson statistic of each equation are the textbook functions of these residuals and of the left hand side, R² is below 1 and not negative for least squares with a constant, Durbin-Watson is between 0 and 4; the covariances of the coefficients are positive definite, their correlations and those of the residuals are between -1 and 1; the likelihood is that of normal residuals with the determinant of their covariances; the standard errors of least squares are those of the diagonal of s²(X'X)⁻¹; degrees of freedom count the estimated coefficients of the equation.", "quantifier": "all estimations that succeed: any equations (also non linear), method, number of equations, coefficients and periods", "why_tests_cant": "Relations between statistics that hold for all data; a test compares the numbers of one sample.", "anchors": ["api/estimation/e_tests.cpp: E_deg_freed, E_c_umu, E_c_loglik, E_c_mcorr, E_c_mcorru, E_c_ttests, E_output", "scr4/s_madet.c: M_det_1", "api/estimation/e_est.cpp: E_gls"]}
{"id": "C57", "title": "The coefficients of a block of equations are the scalars they name", "statement": "Before an estimation every coefficient of the block that does not exist is created with value 0.9 and relaxation 1, and the other scalars are left as they are. The coefficients of the block are those in the right hand sides, each one once, in the order of their first occurrence; a coefficient is found in an equation exactly if its name is in its right hand side; in every equation a coefficient has the value of the scalar of its name; the coefficients to estimate, in all and in each equation, are those with a positive relaxation. The block is refused exactly if a variable is unknown or nothing is to be estimated.", "quantifier": "all workspaces of scalars and variables, all blocks of equations", "why_tests_cant": "Positions in a sorted workspace move when a scalar is inserted, so what holds depends on the names and on their order in the block; tests use blocks whose scalars already exist.", "anchors": ["api/estimation/e_prep.cpp: E_prep_lecs, E_add_scls, E_prep_coefs", "api/lec/l_link.cpp: CLEC::link_names", "api/estimation/e_est.cpp: E_scl_in_eq", "api/lec/k_lec.cpp: L_getscl", "api/objs/kdb.h: index_of, get_name"]}
{"id": "C58", "title": "The step-wise estimation keeps the best combination of coefficients", "statement": "Of all the combinations of two or more of the coefficients of an equation that are to be estimated, those that meet the condition are compared, and the workspace is left with the estimation of the one whose test (R2 or F) is the largest; the coefficients of the combination are estimated, the others are 0 and left out, and coefficients that were not to be estimated are not touched. The value returned is the test of that combination. When no combination meets the condition the result is 0 and every coefficient is left out. When a coefficient does not exist nothing is done.", "quantifier": "all equations, workspaces of scalars, estimations and conditions", "why_tests_cant": "All subsets of the coefficients of an equation, for any estimation and any condition; tests try one equation with a handful of coefficients.", "anchors": ["api/estimation/e_step.cpp: estimate_step_wise, estimate_step_wise_1, E_GetScls, E_SetScl"]}
{"id": "C59", "title": "The cells of a table show the values their formulas have in the columns asked for", "statement": "A column of a sample shows the value of the formula at the period and in the file of the column, divided by the value of the divisor; with two periods, their difference, their difference per period, their growth, the constant growth per period that leads from one to the other, their ratio, or the sum or the mean of the values of all the periods from one to the other in either order; with two files, the operation between what is shown of each. Nothing else is shown: when a value that is needed is missing, a divisor or the value divided by is zero, or a file is not there, the cell is missing. A line shows each of its formulas once for every column of the sample, in the order of the columns, and zero in the cells without formula.", "quantifier": "all tables, formulas, files, samples and columns", "why_tests_cant": "All operations between all pairs of periods and files, with values missing anywhere.", "anchors": ["api/gsample/c_calc.cpp: COL_link, COL_calc, COL_resize, COL_clear, COL_exec", "api/objs/variables.h: global_ref_var"]}
{"id": "C60", "title": "Editing a cell of a computed table gives the value asked for by changing one value of one variable", "statement": "A cell can be edited when its column is one period of the current workspace and its formula has a variable. An accepted edit changes the first variable of the formula, at the period of the column, and no other value, scalar or period; after it the cell shows the value that was asked for, rounded to 8 decimals, whatever the formula and the divisor of the table are. A refused edit changes nothing. A cell that is said to be editable accepts every value that its formula can take.", "quantifier": "all formulas and divisors, values, periods and workspaces", "why_tests_cant": "The variable can be anywhere in the formula, and the divisor is any formula; the value shown after the edit is a property of the solved equation, not of one number.", "anchors": ["cpp_api/computed_table/computed_table.cpp: is_editable, propagate_new_value, set_value", "api/lec/l_eqs.cpp: L_invert", "api/objs/k_wsvar.cpp: KV_set"]}
{"id": "C61", "title": "Aggregating variables by parts of their names", "statement": "For a pattern made of parts in parentheses and parts in brackets, the aggregation takes exactly the variables whose names have the form of the pattern; the variables whose names differ only in the characters between brackets go into one variable, named with the aggregation character in place of these characters. WsAggrSum gives in each period the sum of their values, missing as soon as one is missing; WsAggrProd gives the product; WsAggrMean the mean. With an underscore as the aggregation character the names are always accepted; otherwise the aggregation is refused exactly if one of the names is not the name of a variable. In a workspace with variables only the aggregates change, and only in the periods of the source.", "quantifier": "for all workspaces and files of variables, all patterns, all aggregation characters allowed in names and the blank, all names and all periods", "why_tests_cant": "The groups depend on the names of all the variables of a workspace, and the counters of the means on the order in which the names are inserted; tests use one pattern on one file.", "anchors": ["api/objs/k_grep.cpp:225-270", "api/objs/k_wsvar.cpp:486-598", "api/objs/k_wsvar.cpp:110-140", "api/report/commands/b_ws.cpp:604-650"]}
{"id": "C62", "title": "A line of a report is expanded piece by piece", "statement": "In a line of a report every piece - text, macros and arguments between percent signs, text between backquotes, expressions between braces, functions - is replaced by its value, from left to right, and what replaces it is not read again. Inside braces and calls the macros are replaced first; a function gets the words between its commas, where a word between double quotes can contain commas. After $shift %0% is the number of arguments that are left and %i% the i-th of them. What has no value - an undefined macro, a function that does not exist - stays as it is written. Any text at all can be printed by doubling the characters %, {, @ and the backquote in it, and text without them is not changed.", "quantifier": "for all lines made of such pieces, all macros, arguments, expressions and functions, whatever their values contain", "why_tests_cant": "Values of macros contain any characters, among them those that are special in a line; tests use values made of letters.", "anchors": ["api/report/engine/b_rep_engine.cpp:570-688", "api/report/engine/b_rep_engine.cpp:1000-1110", "api/report/engine/b_rep_engine.cpp:1202-1330", "api/report/engine/b_rep_utils.cpp:356-400", "doc/source/iode_reports.rst:160-226"]}
{"id": "C63", "title": "The lines of a report are executed in the order the commands ask for", "statement": "A report is executed line by line; a line ending with a blank and a backslash is continued on the next one. Lines that do not begin with $ or #, or that begin with two of them, are printed; a sign followed by a blank is a note. $goto jumps behind the label, whatever its case; with a condition exactly if its value is not zero; when the label does not exist the report and all the calling ones end. After a command that fails the report goes on if the command has a dash or the reaction is IGNORE, ends with RETURN, ends together with all the calling reports with ABORT or QUIT. $return ends the report only, $abort all of them. A called report has its own arguments; those of the calling report are the same as before when it has ended. $shift drops the first argument. $repeat runs its text once for each argument. The result does not depend on the number of steps, and the loop of the manual over %1% and $shift runs its command on each argument once, in their order.", "quantifier": "for all reports, lines, labels, arguments, nestings, and all commands, expressions and functions of the rest of the program", "why_tests_cant": "Which line is next depends on labels anywhere in the report, on the values of conditions and on the reports that are called; tests run a few fixed reports.", "anchors": ["api/report/engine/b_rep_engine.cpp:296-530", "api/report/engine/b_rep_engine.cpp:1346-1634", "api/report/engine/b_rep_cmds.cpp:50-275", "api/report/engine/b_rep_cmds.cpp:453-462", "doc/source/reports_execution_commands.rst:128-330"]}
{"id": "C64", "title": "The arguments of commands", "statement": "The arguments of a command are the words of its text between blanks, commas, semicolons, tabs and ends of lines, in their order; a text between double quotes is one argument with the separators in it. A word $NAME is replaced by the words of the list NAME, a word @NAME by the words of the file NAME, and the same holds for the words of lists and files, up to ten levels. A command that names a list that does not exist is refused as a whole, and no name of a list is ever left among the arguments.", "quantifier": "for all texts, lists and files, nested in any way", "why_tests_cant": "Lists refer to lists that refer to themselves, and the words have any length; tests use two or three short lists.", "anchors": ["scr4/s_ainit.c:66-117", "scr4/s_ainit.c:148-222", "scr4/s_ainit.c:268-306", "scr4/s_acerr.c:8-16", "api/b_args.cpp:58-76", "api/k_super.cpp:586-596"]}
{"id": "C65", "title": "The calculus with lists", "statement": "DataCalcLst stores the union, the intersection, the difference or the product of two lists: the union and the intersection contain each name once, in the order in which the names come first in the first list and then in the second; the difference contains the names of the first list that are not in the second; the product the concatenations of each name of the first list with each name of the second. The lists of the operands are replaced by what they contain. The command changes no other list; with a list that does not exist or another operation it changes nothing. DataListSort stores the same names in the order of their characters, DataListCount counts them. DataPattern stores the combinations of a pattern and two dimensions that exist, row by row. Reading the list afterwards gives exactly these names.", "quantifier": "for all lists of lists, with any names, repeated or not, and all patterns", "why_tests_cant": "Lists contain lists, files and repeated names in any order; tests compare one result on two lists.", "anchors": ["api/report/commands/b_data.cpp:135-184", "api/report/commands/b_data.cpp:909-979", "api/report/commands/b_data.cpp:1320-1463", "scr4/s_stun.c:4-48", "scr4/s_stinte.c:16-38", "scr4/s_stdiff.c:15-38", "doc/source/reports_commands.rst:1413-1424", "doc/source/reports_commands.rst:1474-1498", "doc/source/reports_commands.rst:1757-1790"]}
{"id": "C66", "title": "The comparison of a workspace with a file", "statement": "DataCompare puts each name of the workspace and of the file in exactly one of four lists, in the order of the names: in the workspace only, in the file only, in both with equal objects, in both with different ones. Reading the lists gives these names; no other list changes. Two variables are equal when in each period the values pass the test of the manual with the threshold of DataCompareEps, which is kept between 1e-15 and 1: a variable equals itself. Scalars are equal when they have the same values, equations when they have the same formula, method, sample, block and instruments, tables when they have the same attributes and lines.", "quantifier": "for all workspaces, files and thresholds", "why_tests_cant": "The lists depend on every pair of names and on each value of each pair; tests compare one file with one workspace.", "anchors": ["api/objs/k_cmp.cpp:24-161", "api/report/commands/b_data.cpp:1477-1573", "api/objs/tables.h:366-384", "api/objs/tables.h:486-506", "api/objs/tables.h:827-862", "api/objs/equations.h:524-563", "api/objs/identities.h:81-101", "api/objs/scalars.h:57-63", "doc/source/reports_commands.rst:1425-1472"]}
{"id": "C67", "title": "The functions of several series", "statement": "corr, covar, var and stddev give the textbook statistics of the periods asked for and nothing as soon as a value is missing; a correlation lies between -1 and 1. index gives the first period with the value. acf gives the autocorrelation of the degree asked for, up to a quarter of the number of periods. interpol, app and dapp keep the known values of a series and complete the missing ones: on the line through the nearest known values, or following a related series whose ratio or gap to the known values is spread over the periods between.", "quantifier": "for all series, samples, periods and degrees", "why_tests_cant": "The results depend on where values are missing around each period, and the formulas on all the values.", "anchors": ["api/lec/l_exec_mtfn.cpp:50-659", "api/lec/l_exec_tfn.cpp:320-373", "doc/source/lec_language.rst:694-860"]}
{"id": "C68", "title": "The names used in equations, identities and tables", "statement": "DataScanEqs, DataScanIdt and DataScanTbl store two lists: _SCAL has the names of the scalars in the formulas of the objects examined, _EXO the names of the variables, each name once and in the order of the names; for equations and identities without the variables that have the name of an object examined. However many names there are, reading $_EXO or $_SCAL gives exactly these names. No other list changes, except for the numbered parts of these two. A workspace without objects is refused and no list changes.", "quantifier": "for all workspaces, formulas and lists", "why_tests_cant": "The names come from all formulas of all objects and a long list is cut into parts that refer to each other; tests scan one small workspace.", "anchors": ["api/objs/k_lst.cpp:28-197", "api/report/commands/b_data.cpp:980-1092", "doc/source/reports_commands.rst:1366-1385"]}
{"id": "C69", "title": "The functions of reports on texts and lists", "statement": "@take gives the first or last n characters of a text and @drop the others; @replace replaces every place where a text stands, from left to right, whatever the lengths, and never writes outside its memory; @sqz removes the blanks, @strip those at the end; @fmt puts the digits of a number at the places of the format; @index gives the n-th argument. @vtake and @vdrop give the first or last n elements of a list and the others, @vcount their number, so that the loop of the manual sees each element of a list once and in order. @vliste and @sliste give the variables and the scalars of equations, each once, in the order in which they appear.", "quantifier": "for all texts, lists, numbers, separators and equations", "why_tests_cant": "Texts and lists have any length and contain the separators, the text sought overlaps itself, and the text put in its place can contain it; tests use a few words.", "anchors": ["api/report/engine/b_rep_fns.cpp:148-492", "api/report/engine/b_rep_fns.cpp:1197-1331", "api/report/engine/b_rep_fns.cpp:1770-1894", "scr4/s_strepl.c:6-138", "scr4/s_stfmtl.c:32-60", "scr4/s_stvtom.c:39-58", "doc/source/reports_functions.rst:115-430"]}
{"id": "C70", "title": "Dynamic adjustment of equations", "statement": "dynamic_adjustment turns an equation `l := r` into one whose left side is the difference of l and whose right side is, for partial adjustment, c1 times the way from the l of the period before to r and, for error correction, c1 times the difference of r plus c2 times the gap between r and l in the period before. The formula written out reads back as exactly these formulas, and the equation holds in a period exactly if l moves that way. Without `:=` or without coefficients the request is refused.", "quantifier": "for all equations, coefficients, periods and values of the variables", "why_tests_cant": "The new equation is made by pasting texts, so that it means what it should only if no operator, function, lag or comment of the old one takes over a part of the new text; tests look at the text for a single equation.", "anchors": ["api/objs/k_eqs.cpp:27-129", "cpp_api/compute/estimation.cpp:4-37", "api/lec/l_eqs.cpp:605-614", "pyiode/iode/compute/estimation.py:28-86"]}
{"id": "C71", "title": "Simulations that follow the lists of a model ordered before", "statement": "model_calculate_SCC writes the names of all equations of the model, each once, in three lists: prolog, interdependent block and epilog; other lists stay as they are unless their names start with one of the three names. A later model_simulate_SCC or $ModelSimulateSCC with these lists gives exactly what model_simulate gives when it orders the model itself with the same number of passes: the same success or failure and the same values, for all options, variables and periods. Without the lists it is refused.", "quantifier": "for all models, numbers of passes, options, values of variables, periods and names of lists", "why_tests_cant": "The order is found from equations alone, without the variables, kept as texts cut in parts of 1000 names, read back and turned into positions; a difference anywhere changes the values only for some models.", "anchors": ["api/simulation/k_sim_scc.cpp:34-242", "api/simulation/k_sim_main.cpp:779-829", "api/lec/l_link.cpp:223-236", "cpp_api/compute/simulation.cpp:161-337", "api/report/commands/b_model.cpp:255-372"]}
{"id": "C72", "title": "Imported variables and comments get the names and values of the file and the rules", "statement": "Importing a file of variables in ascii gives the sample of the file, and each variable whose name fits a rule under the name that the first such rule makes of it (+ takes a character, - leaves one out, others are added, at most 20 characters), with the values of the file, completed with missing values or cut to the number of periods; variables that fit no rule are left out, and of several with the same new name the last one is kept. Without rules the result is what loading the file gives, long names being cut. Comments are imported in the same way. A rule that makes an invalid name stops the import with an error. Variables of the other formats and the version of import_var with periods work alike.", "quantifier": "for all files of rules, names, texts of variables and comments, samples and periods", "why_tests_cant": "Rules, patterns and texts of any length combine; tests use one file of each format at most.", "anchors": ["api/io/k_rules.cpp:44-173", "api/io/k_imain.cpp:71-374", "api/io/k_iasc.cpp:38-138", "api/io/k_irasc.cpp:37-110", "api/io/import.h:47-220", "cpp_api/KDB/kdb_global.cpp:55-98"]}
{"id": "C73", "title": "Exported files hold the variables, comments and periods they should", "statement": "Exporting variables in CSV writes a row of headings (code, comment, periods) and for each variable that fits a rule its new name, its comment without line ends and its values; in rotated CSV it writes the new names and for each period the values; in DIF it writes the same table as CSV, with the right numbers of rows and columns. Numbers are the nearest with 8 digits, missing values the text chosen by the user. With periods the export has these periods and missing values where the file has none. A program that splits the file at the separator chosen by the user gets the table back. Without rules all variables are exported with their own names. A file that cannot be loaded or created and periods that make no sample are refused. save_csv writes the axes and periods, and for each name in order its values with the digits, decimal point and missing text chosen.", "quantifier": "for all files of rules, variables, comments, samples, separators and texts for missing values", "why_tests_cant": "Numbers, names, comments and separators of any kind combine in a text; tests compare one or two files.", "anchors": ["api/io/k_emain.cpp:116-413", "api/io/k_ecsv.cpp", "api/io/k_edif.cpp:65-133", "api/ascii/k_ccvar.cpp:10-14", "api/ascii/k_ccvar.cpp:325-432", "cpp_api/KDB/kdb_global.cpp:100-170"]}
{"id": "C74", "title": "The commands of reports on data change the objects they name and no others", "statement": "$DataCreate makes an object for each new name, $DataDelete deletes the objects with the names or fitting the pattern given, $DataRename and $DataDuplicate give the object its new name or a copy of that name, $DataExist says whether there is one, $DataUpdate and $DataAppend give texts to comments and lists, a value and a relaxation to scalars and values from a period on to variables (levels, differences or growth rates, over one period or one year), $DataList and $DataSearch store the names that fit. Objects that are not named do not change. A name that exists or does not exist stops creation or deletion at that name. A period in front of the sample, and a wrong number of values for a scalar, are refused.", "quantifier": "for all workspaces, samples, arguments and ways of separating them, names in any letters, decimal numbers, modes and patterns", "why_tests_cant": "Separators, names, modes, number formats and states of the workspace combine; tests run a few commands on one workspace.", "anchors": ["api/report/commands/b_data.cpp:310-570", "api/report/commands/b_data.cpp:586-735", "api/report/commands/b_data.cpp:767-840", "api/report/commands/b_data.cpp:1113-1312", "api/b_args.cpp:117-184", "api/objs/kdb.h:726-962", "api/objs/k_wsvar.cpp:300-364"]}
{"id": "C75", "title": "Operations on ranges of variables change these values and nothing else", "statement": "vars[range] op= number changes the values of the range in every variable of the database; vars[:, period] op= values changes one period, each variable with its value in the order of the names; vars[name, range] op= values and op= another variable change the values of the range in one variable, each with its value; copying a range gives exactly the values of the other range; a new variable made from another database has these values. All databases of the family show the change, all other values stay, and the invariants of the workspaces hold. Ranges outside the sample, different lengths, unknown names and a division by the number zero are refused and change nothing; a zero among several values stops the division at it.", "quantifier": "for all reachable workspaces with subsets, operations and arithmetic, ranges, values and names in any letters", "why_tests_cant": "Whether the objects of two names are shared depends on the history of subsets and copies; the range, the source and the failure positions combine. Tests run a few operations on one workspace.", "anchors": ["pyiode/iode_database/variables_database.cpp:9-303"]}
{"id": "C76", "title": "The commands that describe how equations are estimated change these equations and nothing else", "statement": "$EqsSetSample from to names gives each named equation the sample, $EqsSetMethod n names the method, $EqsSetBlock names the list of the names as block, $EqsSetCmt name text and $EqsSetInstrs name text the comment and the instruments. All other fields and all other equations stay. At a name without equation the command stops, and the equations in front of it have been changed; periods that make no sample change nothing.", "quantifier": "for all workspaces of equations, lists of names in any letters, periods, methods 0-127 and texts", "why_tests_cant": "The effect depends on the separators, the letters of the names, repeated names and the position of the first unknown name together. Tests give one well-formed argument to each command.", "anchors": ["api/report/commands/b_est.cpp:39-308"]}
{"id": "C77", "title": "An estimation saves its results in the equations it estimates, in scalars and in variables", "statement": "Estimating equations on a sample asks for each of them, with its block, the LEC the equations have. On success every equation of the block has the sample, the method, the date and the tests; the scalars e<i>_<test> and the variables _YCALC<i>, _YOBS<i>, _YRES<i> hold the results of equation i, with values on the sample and none elsewhere; all other scalars are as the estimation left them, all other variables and equations stay. However it ends, no equation loses its name, LEC, comment, instruments or block. An estimation that fails only sets the tests of its equation to zero; a name without equation stops the command and the results before it stay.", "quantifier": "for all workspaces of equations, scalars and variables, lists of names, blocks, samples and outcomes of the estimations", "why_tests_cant": "Blocks overlap, names are repeated in other letters, and each estimation sees the results saved by those before it; any of them may fail. Tests estimate one or two fixed blocks.", "anchors": ["api/estimation/k_est.cpp:43-345", "api/objs/k_wsvar.cpp:151-182"]}
{"id": "C78", "title": "The Dickey-Fuller test estimates its equation on the periods where all of it is known and leaves the workspaces as they were", "statement": "The test of an expression estimates d(x) = df_ x[-1] (+ df_d) (+ df_t t) + df1 d(x[-1]) + ... on exactly the periods where x and all its lags lie in the first run of numbers, which are more than the coefficients, beginning with the default coefficients. The result holds value, standard error and t-statistic of each coefficient in this order. Afterwards the equations and all other scalars are as before; the variables too, but for _DF, _YCALC0, _YOBS0, _YRES0. A test with too few numbers or one whose estimation fails gives no result. The report command reads its three numbers and its expression.", "quantifier": "for all expressions and their values, with or without drift and trend, all orders, workspaces and outcomes of the estimation", "why_tests_cant": "The order, the options and the missing values at either end decide together which periods are used; tests run one series with two or three orders.", "anchors": ["api/estimation/e_dftest.cpp:36-265", "cpp_api/compute/estimation.cpp:40-98", "api/report/commands/b_ws.cpp:682-745"]}
{"id": "C79", "title": "A session that edits and estimates equations changes the workspaces only when it is saved", "statement": "In a session the names of the block, its text and the current equation agree after any operations, including those that are refused. Without save, the equations of the workspace are as before; its scalars and variables too, but for results of estimations and coefficients that did not exist. An estimation asks for all equations of the block at once, with the session's scalars, method, instruments and sample, and leaves its results in the equations of the session. Save puts exactly the equations of the block into the workspace, with the session's text, comment and parameters, and the session's scalars; it answers the names that are new and changes nothing when it is refused. A session that is saved before it estimates asks for its own LECs and keeps them.", "quantifier": "for all workspaces, all sequences of operations and all outcomes of the estimations", "why_tests_cant": "What the session and the workspaces hold depends on the order of operations; tests run one order once.", "anchors": ["cpp_api/compute/estimation.cpp:99-424", "cpp_api/compute/estimation.h:149-280", "api/estimation/k_est.cpp:196-345", "api/objs/kdb.h:1039-1066"]}
{"id": "C80", "title": "Cubic splines keep the values of the periods they spread", "statement": "$WsLtoHFlow C and $WsLtoHStock C spread every series without leaving its bounds. The sub-periods of a flow have the value of the period as their sum and follow the natural cubic spline through the values up to a constant in each period; the last sub-period of a stock has the value of the period and the sub-periods lie on the natural cubic spline through the values. Sub-periods are missing exactly where periods are.", "quantifier": "for all series with any missing values, all numbers of sub-periods, in exact arithmetic", "why_tests_cant": "Sums and curves depend on all values and on the position of the missing ones; tests look at a few numbers of one series.", "anchors": ["api/report/commands/b_ltoh.cpp:154-251"]}
{"id": "C81", "title": "Seasonal adjustment takes out the season and nothing else", "statement": "$WsSeasonAdj adjusts the whole years of a series. A series that differs from a level only by factors of the quarters or months with the mean one is adjusted to that level, with an irregular component of 100. A series in other units gives the same result in these units. The component times the irregular component is the adjusted series. Nothing outside of the adjusted years changes, and a series that is not seasonal stays as it is.", "quantifier": "for all series with any missing values, all numbers of periods in a year and of years, all thresholds, in exact arithmetic and with any square root", "why_tests_cant": "The method is a chain of averages over all years in which outliers are replaced; tests compare the numbers of one series with earlier output.", "anchors": ["api/report/undoc/b_season.cpp:86-116", "api/report/undoc/b_season.cpp:140-437", "api/report/undoc/b_season.cpp:491-501"]}
{"id": "C82", "title": "Variables imported from a DIF file get the names and values of its rows", "statement": "A DIF file begins with the numbers of columns and rows, then has one row of headings with the periods and one row for each variable with its name and its values. Importing such a file gives a database over the periods of the headings in which each name, changed by the rules, has the values of its last row. A file whose headings are no periods is refused.", "quantifier": "for all files laid out as the format allows, with any text between its parts, all rules, names and values", "why_tests_cant": "The reader looks for keywords and skips whatever is between them; tests have no file of this format.", "anchors": ["api/io/k_idif.cpp:38-228", "api/io/k_imain.cpp:75-200"]}
{"id": "C83", "title": "Commands on files change the files they name and no others", "statement": "The report commands that copy, move, rename, append and delete files have the effect their names tell: a copy has the content of the original, a moved file is under its new name only, an appended file has the old content and then the new one. No command, and no sequence of commands, changes a file it does not name. A command that fails leaves all files as they were.", "quantifier": "for all contents of the disk, all arguments, all types of files and all sequences of commands", "why_tests_cant": "Tests copy a few files of the distribution; no test looks at all other files or at what is left after a failure.", "anchors": ["api/report/commands/b_file.cpp:36-210", "api/report/commands/b_fsys.cpp:33-274", "api/objs/k_objfile.cpp:918-929", "api/objs/k_objfile.cpp:1236-1320", "api/report/engine/b_rep_engine.cpp:440-500", "scr4/s_copy.c:1-210"]}
{"id": "C84", "title": "Files converted to another character set keep their text", "statement": "Converting a file between the character sets of DOS (code page 850), Windows (1252) and UTF-8 keeps the characters of the text: each character of the output is the one at the same place of the input. Converting to the other set and back gives the same file, and files in ASCII stay the same.", "quantifier": "for all files in ASCII and the letters of French, Dutch, German, Italian and Spanish, of any length; for the ways back all files but those with some listed bytes", "why_tests_cant": "The tables have 128 entries each, and mistakes in them only show when text uses these characters; tests convert one file.", "anchors": ["api/report/commands/b_fsys.cpp:149-274", "scr4/s_stansi.c:4-269", "scr4/s_stutf8.c:154-596"]}
{"id": "C85", "title": "Objects of files of older versions are loaded with their values", "statement": "Files of the versions 4.02 and 5.04d have packs with words of 2 bytes. Loading such a file turns each pack into one of the current version with the same elements, so that comments, lists, identities, scalars and variables get the texts and values the old file has, each under its name; the numbers of version 4.02, which are in single precision, are converted one by one.", "quantifier": "for all packs with words of 2 bytes, all numbers and sizes of elements, all names and all files made of them, for words of 4 and of 8 bytes", "why_tests_cant": "There is no test with a file of an older version, and the conversion moves bytes by computed offsets.", "anchors": ["api/objs/k_objvers.cpp:78-322", "api/objs/k_objfile.cpp:75-110", "api/objs/k_objfile.cpp:375-506", "api/objs/old_structs.h:10-15"]}
{"id": "C86", "title": "A variable computed by a formula gets the values of the formula", "statement": "$DataCalcVar x f gives x, at each period of the sample, the value of the formula f, computed with the values of x already found for the periods before; the formula then holds when it reads x at earlier periods only. The other variables, the scalars and the sample stay as they were, and so does x when the command reports a failure.", "quantifier": "for all workspaces, names and formulas (given by their tokens), and all arithmetics", "why_tests_cant": "The values are stored while the formula is evaluated: what a formula with lags or leads of the variable sees depends on the order of the steps, and the test of the command (tests/test_c_api/test_c_api.cpp:1627) computes one variable from another.", "anchors": ["api/report/commands/b_data.cpp:238-299", "api/b_args.cpp:183-195", "api/lec/l_exec.cpp:241-276", "api/lec/l_link.cpp:27-208"]}
{"id": "C87", "title": "The commands on the workspace of variables do what their arguments say", "statement": "$WsSample from to gives the workspace that sample, keeps the values in the periods of both samples and makes the new ones NA. $WsExtrapolate [method] from to [names] changes the variables named (all, when none is named) inside the sample only, by the method asked for (0 when none is given). $WsCopyVar files from to names reads the files on that sample; without periods on the sample of the workspace, and with a single name on the sample of the file. A command that is refused changes nothing.", "quantifier": "for all workspaces reached by regular histories, all periods, methods, names and separators", "why_tests_cant": "The optional arguments are told apart by their first characters and the number of words: a wrong guess shows for particular texts (a year with leading zeros, two blanks) only, and the tests use one text each.", "anchors": ["api/report/commands/b_ws.cpp:270-312", "api/report/commands/b_ws.cpp:402-487", "api/report/commands/b_ws.cpp:532-594", "api/objs/kdb.h:308-365", "api/objs/k_wsvar.cpp:438-472"]}
{"id": "C88", "title": "The commands on models and identities read their arguments as written", "statement": "$ModelSimulate from to names simulates the equations named, lists replaced, over that sample (all, when none is named), and is refused when the periods are no sample or a list does not exist. $IdtExecute from to names does the same with identities. $ModelSimulateSCC from to pre inter post takes three lists that exist. $ModelCalcSCC n pre inter post eqs takes the number of passes, the names and the equations in this order. $ModelSimulateParms sets each parameter to what is written, and none when there are fewer than six.", "quantifier": "for all texts of arguments, all separators between the words and all contents of lists", "why_tests_cant": "The words are cut out of one text that is changed in place, with limits on lengths and defaults for words that are not known: a wrong position or default shows for particular texts only, and a wrong default simulates another model without an error.", "anchors": ["api/report/commands/b_model.cpp:45-164", "api/report/commands/b_model.cpp:255-344", "api/report/commands/b_idt.cpp:41-118", "api/b_args.cpp:183-217"]}
{"id": "C89", "title": "The commands that convert variables of a file between periodicities convert the variables named, and only them", "statement": "$WsHtoLLast, $WsHtoLMean and $WsHtoLSum file names give each variable named that the file has, at the periods of the target sample, the aggregate of its sub-periods; $WsLtoHStock and $WsLtoHFlow method file names give each of them what the method written computes. At other periods these variables keep their values; variables that are not named, and those the file does not have, do not change.", "quantifier": "for all texts of arguments, all contents of lists, all files and workspaces, all series and arithmetics", "why_tests_cant": "The effect depends on the text of the argument, the lists, the type of the file, the samples of file and workspace and the former values: tests convert one file of one type over one sample, and do not look at the variables that were not named.", "anchors": ["api/report/commands/b_htol.cpp:104-209", "api/report/commands/b_ltoh.cpp:320-415", "api/objs/k_objfile.cpp:684-709"]}
{"id": "C90", "title": "The series of a computed table have the computed values at their periods", "statement": "The sample of a computed table goes from the first to the last period of its columns. For each line and each operation on files get_series gives a series under the name of the line, with one value for each period get_series_periods lists: the value computed in the column with this period and these files, or a missing value when there is no such column. Columns with different periodicities, and operations on files that the table does not have, are refused.", "quantifier": "for all generalized samples with periods of one periodicity, in any order and with any files, all numbers of columns of the table, all lines and values", "why_tests_cant": "Three indices run in parallel (the column of the sample, the column after resizing, the position of the period in the series): a shift of one of them shows only when the columns are not in the order of the periods, periods are missing between them or several files are used.", "anchors": ["cpp_api/computed_table/computed_table.cpp:26-49", "cpp_api/computed_table/computed_table.cpp:84-111", "cpp_api/computed_table/computed_table.cpp:160-206", "cpp_api/computed_table/computed_table_graph.cpp:9-110"]}
{"id": "C91", "title": "The import commands read, save and trace what their words say", "statement": "$FileImportVar format rule infile outfile from to [trace] reads infile in the format named, with the rules of rule, and saves what is read in outfile and nowhere else; $FileImportCmt format rule infile outfile language [trace] does the same for comments, and refuses formats that have none. The trace is written when it is named and closed again. Too few words, lists that do not exist and periods that are no sample are refused and nothing is saved.", "quantifier": "for all arguments whose lists can be replaced, all files, all formats and all states of the trace file", "why_tests_cant": "The words are taken by position and the format by a letter that indexes two tables; an exchange of two words or a shift in a table shows only for the format and the file concerned, and what is left behind after a refusal is not looked at by a test of the result.", "anchors": ["api/report/commands/b_xode.cpp:34-66", "api/report/commands/b_xode.cpp:83-116", "api/io/k_imain.cpp:293-326", "api/io/k_imain.cpp:341-385", "api/io/import.h:211-221", "api/io/import.h:293-303"]}
{"id": "C92", "title": "A file exported for TSP has all values in order and comments stay comments", "statement": "A TSP file begins with the frequency and the first and last period of the sample. For each variable that fits a rule, in the order of the names, it has the new name, the comment on lines that all begin with a question mark, and then every value once and in the order of the periods, on lines of at most 80 characters that end behind a value.", "quantifier": "for all samples, rules, variables and values whose texts fit in a line, and all comments, whatever characters and ends of lines they have", "why_tests_cant": "Where a line is broken depends on the lengths of all values before: a value cut in two, lost or repeated at the end of a line shows only for some lengths, and a comment that leaves its line is read by TSP as a command.", "anchors": ["api/io/k_etsp.cpp:46-79", "api/io/k_etsp.cpp:87-149", "api/io/k_emain.cpp:208-257", "scr4/s_sttext.c:44-76"]}
