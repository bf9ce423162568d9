# Formal model of plan-be/iode: design

The code in `/repo` (C++ and C) is modelled by hand as total Lean 4 functions, function by function,
and the properties of `properties.jsonl` are stated and proved about that model.
Nothing of `/repo` is compiled or run.

## Layout

* `lean/Verif/Model/*.lean`  : the model. Each definition cites the file and lines it models and says where it simplifies.
* `lean/Verif/Spec/*.lean`   : specifications that are too long for the head of a property file (meaning of formulas, the
  manual's functions, simulation, conversions, generalised samples, structured reports). They do not use the model's helpers.
* `lean/Verif/Lemmas/*.lean` : helper lemmas.
* `lean/Verif/Props/Cnn.lean` : the property theorems `Cnn_...`, one file per property, each with an `example`
  showing a concrete non-trivial case that meets its hypotheses. Shorter specifications stand at the head of the file.
* `MANIFEST.json` : property -> theorems (generated by `tools/mkmanifest.py` from the files and `tools/status.json`).
* `AXIOMS.md` : the axioms each property theorem depends on (output of `#print axioms`).
* `seeded/LOG.jsonl` : wrong programs tried against the theorems.

Names: a theorem `Cnn_..._partial` proves part of the property or needs a hypothesis the property does not have;
`Cnn_..._counterexample` proves that the unrestricted statement is false of the code.

## Trusted base

* Lean 4.33.0 kernel. Axioms used: at most `propext`, `Classical.choice`, `Quot.sound`
  (no own axioms, no `sorry`, no `native_decide`, no `bv_decide`). `AXIOMS.md` lists them theorem by theorem.
* The correspondence between C++ text and Lean model is by reading; it is not machine checked.
* Undefined behaviour (reading an empty vector, out of bounds access, null dereference, uninitialised memory) is a
  distinct outcome of the model (`ub`), never assumed away.

### Modelling conventions

* C++ exceptions and error returns are values (`Except`/`Option`).
* `double`: four regimes, chosen per property.
  1. *Uninterpreted*: values are any type with any operations; used where a property does not need arithmetic
     laws (compilation, evaluation, ordering, merging, storage). These theorems hold for IEEE doubles as well.
  2. *Exact field*: values are elements of an arbitrary (ordered) field or of the reals; used for growth-rate
     round trips, inversion, RAS, conversions. Rounding is **not** modelled; the theorem files say so.
  3. NA (`IODE_NAN`, any value below -1e37) is `none`.
  4. *Exact doubles* (text formats): a finite `double` is the rational number it stands for, reading and printing round to
     nearest, ties to even, with overflow and subnormal numbers (`Printf.Dbl`, `ieee`). Only the sign of zero is left out.
* `int`, `long` and `short`: integers are unbounded except where a property depends on the width
  (`short nb_periods`), which is then modelled with the narrowing conversion.
* Pointers and sharing: objects live in a heap of identities (`shared_ptr` = heap address), so that
  "same object" is equality of addresses.

### Parts of the code that are modelled

| model file | code | left out or simplified |
|---|---|---|
| Period, Sample | api/time/period.h, sample.h | `long` unbounded; `short nb_periods` exact |
| Names, SMap, Kdb | api/utils/utils.h, api/objs/kdb.h | databases are never destroyed; descriptive fields, warnings |
| Vars, VarModes | api/objs/variables.h, k_wsvar.cpp (sample, merge, get/set by mode, extrapolation) | `KV_add`, `KV_aggregate` |
| Pack, File, Save | api/objs/pack.cpp, k_objfile.cpp | compressor is a parameter; old file versions; text formats; big-endian |
| Lists, Grep, CopyFrom | api/objs/k_lst.cpp, k_grep.cpp, k_kdb.cpp, scr4 string helpers they call | grep in contents |
| Lec, LecExec, LecLink | api/lec/l_compile.cpp, l_link.cpp, l_exec*.cpp, k_lec.cpp | the input is a token list, see Yy, LecLex for the text; Hodrick-Prescott and other filters |
| Yy, LecLex | scr4/s_ybase.c, s_yread.c, s_ylex.c, api/lec/l_token.cpp | `#` directives and the macros they define; limits of 40000 characters; `L_expand_super`; rounding to `float` and the expansion of `'patterns'` are parameters |
| LecInvert, Newton | api/lec/l_eqs.cpp, l_newton.cpp, l_secant.cpp | an uninitialised bound of the secant method is an arbitrary value (in C++ reading it is undefined) |
| SimOrder, SimRun, Goal | api/simulation/k_sim_order.cpp, k_sim_main.cpp, k_sim_exo2endo.cpp | messages, statistics, lists written when debugging (`simulate_SCC` is in Scc) |
| Idt | api/k_exec.cpp, report/commands/b_idt.cpp | trace output; a file is the database it contains |
| Convert | report/commands/b_htol.cpp, b_ltoh.cpp | cubic splines (see Spline) |
| Ras | report/commands/b_ras.cpp | rounding; substitution of names in the pattern and its buffers |
| GSample | api/gsample/c_cc.cpp | lexer; `PER`, `SUB` |
| Macros | report/engine/b_rep_defs.cpp, b_rep_foreach.cpp, b_rep_proc.cpp, line loop of b_rep_engine.cpp | values are lists of plain words; `$goto`, `$if`, `$repeat`, nested files |
| Obj | binary form of objects: api/objs/k_cmt.cpp, k_lst.cpp, k_idt.cpp, k_scl.cpp, k_wsvar.cpp, k_eqs.cpp | the code page and the test whether a formula compiles are parameters; doubles and floats are bit patterns; a compiled formula (CLEC) is an arbitrary block |
| Tbl | binary form of tables, `operator==`: api/objs/k_tbl.cpp, tables.h | same; pointers and padding are arbitrary values; constructors and line operations |
| Printf | `printf("%.<P>lg")` and `atof` of the C library | sign of zero; assumes correct rounding to nearest even |
| Ascii | api/ascii/k_ccvar.cpp, api/utils/yy.cpp, scr4/s_yread.c (`YY_unread`) | `ask`; writing to the standard output; `#` directives |
| AscText | api/ascii/k_cccmt.cpp, k_cclst.cpp, k_ccidt.cpp, api/utils/yy.cpp (`K_wrap`), scr4/s_sttext.c, s_stdhex.c, api/objs/identities.h (`set_lec`) | iconv and the compiler of formulas (parameters) |
| AscScl | api/ascii/k_ccscl.cpp | that of Ascii |
| AscEqs | api/ascii/k_cceqs.cpp; api/utils/yy.cpp 71-120; the constructor of Equation (api/objs/equations.h) | those of Ascii and AscText; the compiler is a parameter (name and formula); the sample of the variables is a parameter; numbers of the date have no limit |
| AscTbl | api/ascii/k_cctbl.cpp; api/utils/yy.cpp 210-227, 258-273; the constructors of Table and TableCell, `set_text`, `set_lec`, `set_align` (api/objs/k_tbl.cpp, api/objs/tables.h) | those of Ascii and AscText; the compiler is a parameter; a run that does not end is `.err` at every fuel; `%f` is computed exactly |
| Linear | scr4/s_masol.c, scr4/s_maro.c 9-48, scr4/s_mainv.c 46-107, `ZERO` of scr4/s_mat.h | numbers are exact; wrong dimensions and lack of memory |
| Hodrick | api/lec/l_hodrick.cpp; api/lec/l_exec_mtfn.cpp 661-714; api/report/undoc/b_trend.cpp 111-112 | numbers are exact, `log` and `exp` are parameters; the rest of `$WsTrend` (which asks the file for the weight instead of the last name, lines 78-79) |
| Estim | api/estimation/e_est.cpp, e_prep.cpp 25-67, 228-293, 323-414, 578-590 | numbers are exact; compiling and linking the equations (the right hand sides are functions of the coefficients); the test against `FLT_MAX` (e_est.cpp 195-196); messages, the matrix of correlations, the statistics of the equations |
| EstStat | api/estimation/e_tests.cpp 32-330, scr4/s_madet.c 36-77 | numbers are exact; `sqrt`, `log` and `M_PI` are parameters; saving the statistics in scalars and equations (as single precision numbers) |
| EstPrep | api/estimation/e_prep.cpp 113-210, 323-378, e_est.cpp 268-279, api/lec/l_link.cpp 27-47 | an equation is the list of the names of its two sides; the values of the left hand sides, the instruments, the method |
| StepWise | api/estimation/e_step.cpp 43-78, 134-185, 240-289 | the estimation and the evaluation of the condition are parameters; the standard errors of the scalars, messages, the split of the name argument; the caller B_EqsStepWise |
| TblCalc | api/gsample/c_calc.cpp 75-86, 105-252, 268-290, 299-362 | formulas are their values in each file (C24 to C29) and whether they link; `pow` is a parameter; messages, the number returned by COL_resize |
| TblEdit | cpp_api/computed_table/computed_table.cpp 207-235, 241-306, 312-358; api/objs/k_wsvar.cpp 300-340; api/objs/tables.h 327-331 | formulas are tokens (Model/LecLex); all names exist; the Newton-Raphson attempt is followed up to its compilation, then a parameter; the new computation of all the cells (C59) is left out |
| Aggr | api/objs/k_grep.cpp 225-270, api/objs/k_wsvar.cpp 486-598, api/report/commands/b_ws.cpp 604-630 | Exact numbers with the missing value `-2e37`; `times` is a map from positions to counters, `none` where the memory is not initialised; loading the file and reading the arguments are not modelled. |
| Expand | api/report/engine/b_rep_engine.cpp 570-688, 1000-1108, 1202-1330, b_rep_utils.cpp 356-400 | A line is a list of characters; macros, LEC expressions, commands between braces and functions are given by an environment over a state, which they may change. Upper and lower case are those of ASCII. The lengths of the buffers are not modelled. |
| Report | api/report/engine/b_rep_engine.cpp 296-530, 1346-1634, b_rep_cmds.cpp 50-275, 453-462, scr4/s_strepl.c, s_stljus.c, s_ststrp.c | The workspaces, all the commands that are not about the order of execution, the expressions, the functions, the files and the printing are given by a system over a state. They do not change the arguments, the current line or the reaction to errors; `$foreach` and procedures are in Macros. `$indent`, `$multiline` and `$noparsing` do not change during the run. |
| Args | scr4/s_ainit.c 66-117, 148-222, 268-306, s_acerr.c 8-16, api/b_args.cpp 58-76, api/k_super.cpp 586-596 | Built without `DOS`. The lists are a function from names to texts, the files too: a file that can be opened is read to its end and contains no null character. The messages are not shown, only their lengths are compared with the array they are written to. |
| LstCalc | api/report/commands/b_data.cpp 135-184, 586-636 and 1142-1196 (lists only), 909-979, 1320-1463, scr4/s_stun.c 4-48, s_stinte.c 16-38, s_stdiff.c 15-38 | The commands get the words of their arguments. Whether an object exists is a parameter. `qsort` is insertion: any sort gives the same list. `DataPattern` is modelled for valid names of lists. |
| Compare | api/objs/k_cmp.cpp 24-161, api/report/commands/b_data.cpp 1477-1573, the comparisons of api/objs/tables.h 366-384, 486-506, 827-862, equations.h 524-563, identities.h 81-101, scalars.h 57-63 | Values are rational numbers. Whether a formula can be compiled is a parameter. The file is given as read; the names in both are keys. |
| Mtfn | api/lec/l_exec_mtfn.cpp 50-659, api/lec/l_exec_tfn.cpp 320-373 | The functions on series, not the parser and the stack: a series is a function of the period that may have no value; periods outside of the sample have what the expression gives there. Exact arithmetic; the square root and the power are parameters (the real ones in the theorems). |
| Scan | api/objs/k_lst.cpp 37-197, api/report/commands/b_data.cpp 1026-1090, api/objs/tables.h 315-325 | The names of a compiled formula are given (`lnames` of Model/LecLink computes them). The databases that collect names have only names. The subset of the objects that the arguments of the command name is given. |
| RepFn | api/report/engine/b_rep_fns.cpp 167-492, 1214-1331, 1789-1894, api/report/engine/b_rep_engine.cpp 1053-1082, scr4/s_strepl.c, s_stuind.c, s_stupos.c, s_stmtov.c, s_stvtom.c, s_stsqz.c, s_ststrp.c, s_stfmtl.c | Texts are shorter than 2^31 and have no character 0; upper and lower case are those of ASCII; the names in a compiled equation are given. The buffers of `@replace` and `@fmt` and the overflows of `int` and `long` are modelled; leaks are not. |
| DynAdj | api/objs/k_eqs.cpp 27-129, cpp_api/compute/estimation.cpp 4-37, api/lec/l_eqs.cpp 605-614, scr4/s_ststrp.c, s_stacpy.c | Allocation succeeds. The size of the buffer is modelled (writing behind its end is undefined), and so is the null pointer put in a std::string. |
| Scc | api/simulation/k_sim_scc.cpp 34-242, k_sim_main.cpp 779-829, api/lec/l_link.cpp 223-236, cpp_api/compute/simulation.cpp 161-337, api/report/commands/b_model.cpp 255-372 | Formulas are compiled and the value of one is a parameter; the sample is inside that of the variables; the lists contain names, not patterns or files, so that `get_subset` gives the equations with these names; times and messages are left out. |
| Import | api/io/k_rules.cpp 44-173, k_imain.cpp 71-374, k_iasc.cpp 38-138, k_irasc.cpp 37-110, import.h 47-220, cpp_api/KDB/kdb_global.cpp 55-98 | Files are their texts, `fgets` reads bytes; the trace, messages and the saving of the result are left out; reading DIF, Bistel, NIS, GEM, PRN and TXT is not modelled beyond which function is used; languages of comments and the other comment formats are not modelled. |
| Export | api/io/k_emain.cpp, k_ecsv.cpp, k_edif.cpp (CSV, rotated CSV and DIF), api/ascii/k_ccvar.cpp 325-432 (`save_csv`), cpp_api/KDB/kdb_global.cpp 100-170 (`export_as`) | Files are their texts; whether a file can be created is a parameter, files of variables and comments are given as the databases in them. TSP, WKS and GNUPlot are not modelled; numbers are printed by the `%g` of Printf. |
| DataCmd | api/report/commands/b_data.cpp (create, delete, rename, duplicate, update of variables, scalars, comments and lists, append, exist, list, search in names), api/b_args.cpp 117-184, api/objs/kdb.h 726-962 | A workspace is its map, without subsets; doubles are elements of a field and `rnd` gives the one for a decimal number; `inf`, `nan` and hexadecimal numbers are not read; the mismatch of `new` and `SCR_free` in `B_DataDelete` is not modelled; updates of equations, identities and tables are not modelled. |
| VarOps | pyiode/iode_database/variables_database.cpp | The arithmetic of doubles is a parameter; an array from Python is a list and reading behind its end is undefined; a variable that is read is the list of its values on the heap, so that writing to it shows. |
| EqsCmd | api/report/commands/b_est.cpp 39-308 | A workspace is its map; an equation has the fields the commands change and the rest of it. `$EqsEstimate` is not in this model (see Estim, EstPrep). |
| EstSave | api/estimation/k_est.cpp | The estimation of one block is a parameter: what it does to the scalars and, if it succeeds, what it finds (see Estim, EstPrep, EstStat). A database of equations is the map of the workspace with the keys of those in `E_DBE`. Printing is left out; the number of an equation in its block has so few digits that the names of the results are valid. |
| DfTest | api/estimation/e_dftest.cpp, cpp_api/compute/estimation.cpp (40-98), the arguments of `B_StatUnitRoot_1` in api/report/commands/b_ws.cpp | The values of the expression are a parameter (see LecExec), the estimation too (see EstSave). The arithmetic of doubles is a parameter; `C78_scalars` is for exact arithmetic. Printing the result is left out. |
| EstEdit | cpp_api/compute/estimation.cpp (99-424), the setters in cpp_api/compute/estimation.h, the loop of `KE_est_s` with a local database | The estimation of a block is a parameter (see EstSave), so are the coefficients of a LEC and the names a filter stands for. Which scalars of session and workspace are one object is the list `shared`. The matrices and series that are read from an estimation are left out. |
| Spline | report/commands/b_ltoh.cpp (154-251) | Exact arithmetic in an ordered field; a missing value is `none`. |
| Season | report/undoc/b_season.cpp (`DS_test`, `DS_vec`, `DS_extr` and the loop over the variables) | Exact arithmetic in an ordered field, `sqrt` is any function; a missing value is `none`; a division by zero gives zero where the code goes on with an infinity. Not modelled: arguments, loading, the sample (`DS_smpl`). |
| Dif | io/k_idif.cpp (header, cells, rows) and the loop of io/k_imain.cpp over them | The lexer is that of `Yy`; a null database or string that is used is `ub`. Not modelled: comments (the format has none), and that blocks made by `new` are given back with `SW_nfree`. |
| FileCmd | report/commands/b_file.cpp, b_fsys.cpp; set_file_extension; the copies and conversions of scr4 (s_copy.c, s_stansi.c, s_stutf8.c) | The disk is a function from paths to contents; `may` tells which paths may be written, and it is the same during a command. Directories, links and several paths of one file are not modelled. `junk` is what memory has where the program reads it before writing it. Reading the header of a database into the null pointer of `update_filename` is `ub`. |
| ObjVers | objs/k_objvers.cpp but for equations and tables; the branches of load_binary for the versions 1 and 2 | The header is taken as read: on 64 bits the program reads it with the layout of its own structure, which is not the one of the old files (k_objfile.cpp:122 says so). What becomes of a number in single precision (`%.8g`, `atof`) is a parameter. |
| DataCalc | report/commands/b_data.cpp: `B_DataCalcVar` | The workspace has a sample. The tokens of the formula are given by a parameter; compilation, link and execution are those of Lec, LecLink and LecExec. |
| WsCmd | report/commands/b_ws.cpp: `B_WsSample`, `B_WsExtrapolate`, reading of the arguments of `B_WsCopy` for variables; kdb.h `filter_names` | Codes other than 0 and exceptions are one outcome. What `copy_from` does is in CopyFrom. |
| ModelCmd | report/commands/b_model.cpp, b_idt.cpp: reading of the arguments of `B_ModelSimulate`, `B_ModelSimulateParms`, `B_ModelCalcSCC`, `B_ModelSimulateSCC`, `B_IdtExecute`; b_args.cpp `B_get_arg0`, `B_argpos` | What is computed then is in SimRun, Scc and Idt. `atof` reads decimal numbers. |
| ConvCmd | report/commands/b_htol.cpp `B_htol`, b_ltoh.cpp `B_ltoh`: reading of the arguments, loading of the file, choice of the method | A file is what loading it gives: the variables named of a binary file, all variables of an ascii file; no sample stands for a file that cannot be read. Cubic splines are a parameter (Spline models them). |
| Graph | cpp_api/computed_table/computed_table.cpp `initialize` (sample, operations on files, columns), `find_file_op`, `compute_values`; computed_table_graph.cpp | The columns are what COL_cc gives (GSample), the results of a row what COL_exec gives (TblCalc). The text of the operation on files is a parameter. Files, names of columns. |
| ImpCmd | api/report/commands/b_xode.cpp; api/io/k_imain.cpp `IMP_RuleImport`, `IMP_RuleImportVar`, `IMP_RuleImportCmt` | What ascii and DIF files give is in Import and Dif; the readers of the other formats are a parameter. The extension of the file saved and the copy of the former file, the text of the trace. |
| Tsp | api/io/k_etsp.cpp; api/io/k_emain.cpp `EXP_Ws`; scr4/s_sttext.c `SCR_text` | Rules, values and comments are those of Export. The character set of comments; samples without periods. |

### Parts of the code not modelled

User interfaces (`gui`, `dos`), printing (`api/print`, `api/write`), graphs, conversion tables of code pages, the
compression library, file-system calls other than the order of effects of a save, Python binding, estimation
numerics (`api/estimation`), calculation of tables (`api/gsample/c_calc.cpp`) and import/export formats, unless the table above says otherwise.

## Where the code does not do what the property says

Each line is a theorem `..._counterexample` (or is named) in the file of the property.

* C02 periods with step 0 or a negative step are accepted by the parser.
* C03 samples of more than 32767 periods get a wrong count (`short`).
* C05, C07 comments: names differing in case are kept apart by the database but not by its callers.
* C06 `rename` with overwrite leaves the old object in subsets; clearing a subset cuts it off; `merge`/`copy_from`
  remove overwritten names from subsets.
* C10, C13 merging a subset into its own parent loses objects or values; merging from a database without a sample
  dereferences null.
* C11 `clear` of a subset destroys the sample of its siblings.
* C18 reading chosen objects from a file: an absent name gets its neighbour's object; unsorted names get other objects;
  compressed files give compressed bytes.
* C19 samples starting in a year that is a multiple of 256 are lost when loading.
* C20 after a crash the next save overwrites the backup with the damaged file.
* C21 splitting empty or long lists, expanding cyclic lists (endless recursion).
* C22 files after one that has none of the names are not read; for variables all variables are copied.
* C23 patterns such as `A**`, `!!`; `&` at the end of the text reads behind the string.
* C24, C25 the operator stack is not cleared after a rejected formula, so the next formula may be compiled wrongly;
  `()` and `lcount`.
* C27 `max(A,B)[-1]` lags only the last argument.
* C28 `if`, `log(b,x)`, `div0` have their arguments in another order than documented.
* C29 a linked formula executed after names were added reads other variables.
* C30 inversion of exponents, `exp` with a base, calls with several arguments.
* C31 the secant method may answer with a value that is not a root.
* C32 a list with duplicates leaves equations unsolved. C33 coefficients count as a dependence on the first equation.
* C35 thresholds of 10 and more accept missing values. C36, C37 goal seeking overwrites exogenous values; a second
  exchange may throw.
* C38 identity sets without a circle are rejected because of a `continue` that skips the counter. C39 identities with
  scalars can never be executed.
* C40, C41 conversions from a start that is not aligned are dated wrongly; linear interpolation reads out of bounds.
* C42 a target of 0 is ignored.
* C43 a left shift of a group moves every second column to the right; unmatched parentheses are accepted.
* C44 `$undef A B` removes one macro; loops over names of 12 characters and loops nested over the same name never end;
  a return inside a loop leaves the variable changed.
* C45 an equation with a comment outside ASCII cannot be saved; one identity with a malformed formula makes the whole
  workspace unsavable (`C45_identity_empty`); the sample of an equation is lost if
  its first year is a multiple of 256 (`C45_equation_sample_lost`).
* C46 a cell with a formula that does not compile shifts all cells after it; separator, mode, files and date lines lose
  their graph type and axis; double quotes at the ends of texts are lost; a table with different grids is not equal to
  itself (`C46_equal_iff`).
* C47 reading `$LIST` changes the list itself (semicolons become commas); decimal numbers are rounded to single precision
  (`C47_single_partial`); names of more than 20 characters are read as other names; variables such as `_1` or `A#` and
  scalars named like a function cannot be used; a comment in front of `$LIST` is an error; a list that refers to itself is
  read without end; decimal numbers of 255 characters overflow an array.
* C48 variables whose name ends in `#` overwrite others with missing values; variables named like a key word of tables (`DATE`,
  `BOX`, `LINE`, ...) are lost; infinity creates a variable `INF`; a third and the largest double are not restored; a number of
  255 characters overflows an array; `BOLD` stands for `sample`; samples of more than 32767 periods throw.
* C49 `^` in front of a letter becomes a control character, so an identity `A^B` comes back empty without any message; lines of
  comments are joined and each save and load adds a blank; tabs, blanks in front of a text and words of more than 60 characters
  are not kept, a number `1e-5` may be cut behind its sign; names with `#` lose their text; quotes in formulas are not escaped; a
  formula that can not be converted takes the next identity with it.
* C50 a missing value becomes 0.9 and a missing relaxation parameter 1; 14 digits do not restore a third; infinity creates a
  scalar `inf`; a name with `#` overwrites another scalar; a fourth `na` is a name; a number of 255 characters overflows an array.
* C51 an empty block, or a formula that does not compile any more (it is stored as nothing), gives a file that can not be read from
  there on; without a sample the date and the tests are lost, the tests at places 0 and 5 and from 11 on always; a comment is converted
  once too often on loading (`set_comment`), so that one with accents can not be saved again; an infinite test, quotes in a formula or
  a name without a string make the loader build a string of a null pointer; `^` in front of a letter is changed; 8 digits do not
  restore 16384001 / 2^14; an unknown method becomes LSQ; an empty comment in a file ends the loading.
* C52 a table that is not closed is read forever (the end of the file is skipped), also when writing stopped at a text that can not be
  converted; a table whose name is a key word (`DATE`, `LINE`, `BOX`...) is written but lost when it is read; a negative setting becomes 0
  and a line; an axis before the cells, a title that is a formula and a text that is one quote are undefined behaviour; quotes at the
  ends of a text, the kind of graph when it is not a bar, the axis and the graph of titles and separators, the other cells of a title,
  bold separators, infinite bounds, repeated columns, attribute and shadow of the table are lost; empty formulas become empty texts.
* C52 a stray word between two cells of a table empties the cells behind it, without any message.
* C53 the known values after a gap are lost; a weight between zero and 1e-25 is taken into account in half of the matrix only; with a
  negative weight the system may have no solution: zeros are returned as if all went well; four values are enough for `$WsTrendStd`
  and not for `hpstd()`.
* C54 numbers below 1e-25 are taken for zero, whatever the size of the others: a regular system may be refused and a wrong solution may
  be returned; `M_inv_1` does not exchange rows and refuses matrices that have an inverse.
* C55 an equation that is fitted exactly is reported as a failure, although its coefficients have been found (the covariances of the
  residuals have no inverse); so are coefficients that converge in the last iteration allowed; a failed estimation leaves the coefficients
  it has reached in the workspace; a coefficient whose true value is 0 is replaced by 0.1 in the next Jacobian and the iteration then
  stops at 0.1 (in exact arithmetic; with doubles it takes a value below 1e-15 in size); a coefficient that starts below the threshold of
  convergence has converged whatever the step, which matters when the relaxation parameter is not 1; with exactly one instrument the
  iteration mixes a projected right hand side with a matrix that is not projected, and the standard errors are those of least squares; a
  negative relaxation parameter makes E_jacobian write after the end of its matrix.
* C56 the R² of an equation whose left hand side is constant is 1 whatever its residuals; without constant R² and the F statistic can be
  negative; the F statistic of an equation with one coefficient is 0; when all the coefficients of the first equation are fixed the
  degrees of freedom of the first coefficient are computed from a variable without value.
* C57 the equations keep positions in the sorted workspace of scalars, and creating a scalar moves the following ones: when an equation has a
  new coefficient that comes before a coefficient of an earlier equation, the earlier equation reads another scalar, and a coefficient may
  never be estimated (`Y := b * X`, then `Z := a * X`, without any scalar beforehand). A second estimation is right.
* C58 with 31 coefficients or more 2^n is not an `int`; the names of a combination are gathered in 512 bytes without a check (26 names of 20
  characters overflow); an equation with one coefficient is never estimated and its coefficient is set to 0; when the estimation of a
  combination fails, the test left by an earlier estimation is used, and the combination that failed may be chosen.
* C59 mean growth between values of opposite signs shows a number that is no growth rate (the sign is put in front of the growth of the
  absolute values); a divisor with an unknown variable gives up the line instead of leaving the cell missing; file numbers up to 10 (and any
  number for the second file) are accepted in a sample, but there are only five files: `2000[7]` reads after the end of the array and
  `2000[1-0]` shows a value that was never computed.
* C60 the divisor is put behind the value without parentheses: with the divisor `A + 1` a cell asked for `v` becomes `(v*A + 1)/(A + 1)`.
  A first variable that is only lagged, and a variable found twice (in the formula, or in the formula and in the divisor) are said to be
  editable and are always refused: the text given to the Newton-Raphson method contains `:=`, which does not compile, so the method is never
  reached; the stack of operators of the compiler is left as it is, and the next formula compiled is wrong.  The value is rounded to 8
  decimals, so that small values become 0.  A period outside the sample is accepted and nothing changes.
* C61: `WsAggrMean` divides every aggregate by the counter of the one that the last variable matched belongs to (`C61_mean_counterexample`), and since the counters are kept by position in a sorted database the counter read may never have been set (`C61_mean_counter_counterexample`). A product in which a missing value comes first can be a number (`C61_product_missing_counterexample`). Before `WsAggrChar` is used the character is the null character, which cuts the names (`C61_nochar_counterexample`); with the blank names can become invalid (`C61_blank_counterexample`). Without a sample a pointer that was never set is freed (`C61_nosample_counterexample`).
* C62: a brace or a backquote at the end of a line makes the code read behind the end of the text (`C62_end_counterexample`); one that is not closed disappears together with the next character (`C62_open_counterexample`). A percent sign that is not closed stays, but not before `-`, `!` or `#` (`C62_percent_counterexample`). `@()` builds a `std::string` from the null pointer (`C62_noname_counterexample`). After `$shift -1` the first argument is the name of the report (`C62_unshift_counterexample`); after more shifts than arguments `%0%` is negative and `%*%` reads behind the arguments (`C62_shift_counterexample`). `%!x%` without value loses its flag (`C62_flag_counterexample`); `%*%` puts semicolons where the manual shows blanks (`C62_all_counterexample`).
* C63: `$goto` with a value of -1 is an error instead of a jump (`C63_goto_minus_counterexample`); the value is cut to an integer, so that one half does not jump, and a missing value always jumps (`C63_goto_value_counterexample`). Labels are searched in the text before expansion, and not behind a dash (`C63_goto_written_counterexample`). `$OnError QUIT` is not known, only `QUITODE` (`C63_quit_counterexample`). The reaction chosen in a called report stays (`C63_reaction_counterexample`). `$abort` inside `$repeat` only ends the repetition (`C63_abort_counterexample`). The name of a command is written to an array of 31 characters (`C63_long_counterexample`). The text of `$repeat` is expanded three times (`C63_repeat_counterexample`), in memory for ten replacements (`C63_room_counterexample`). A command that returns -2, -3 or -4 ends the report even behind a dash (`C63_code_counterexample`).
* C64: an empty text between quotes is no argument and takes what is behind it up to the next quote (`C64_empty_quotes_counterexample`); a quote inside a word is lost (`C64_inner_quote_counterexample`); quotes do not protect the name of a list (`C64_quoted_list_counterexample`) and do not keep words together in a list (`C64_list_quotes_counterexample`). A list that contains itself is accepted and gives ten copies (`C64_cycle_counterexample`); a file that does not exist is accepted, and drops what is behind it if it is the first word (`C64_missing_file_counterexample`). Words are cut after 128 characters (`C64_long_word_counterexample`), and a text of 128 characters between quotes does not end at the quote (`C64_long_quoted_counterexample`). The message for a list or file with a long name does not fit its array (`C64_message_counterexample`).
* C65: with a list that contains the name of a list that does not exist, `DataCalcLst` stores an empty list and succeeds, and the count is 0 (`C65_unknown_counterexample`). The difference keeps repeated names, unlike the other operations (`C65_twice_counterexample`). Only the first character of the operation is read (`C65_operation_counterexample`). Counting a list that does not exist raises an exception instead of returning -1 (`C65_count_counterexample`). When the first combination of a pattern does not exist, the others are added to the old content of the list (`C65_pattern_kept_counterexample`); with one dimension the objects need not exist (`C65_pattern_one_counterexample`); combinations of more than 20 characters do not fit their array (`C65_pattern_long_counterexample`).
* C66: the comparison of values is relative to the value in the workspace, so not symmetric (`C66_symmetric_counterexample`). Variables are compared by position, not by period; with a file of fewer periods memory is read behind its end (`C66_sample_counterexample`). With an empty file no list is built and an error returned (`C66_empty_counterexample`). A list that cannot be stored is not an error unless it is the last one (`C66_names_counterexample`). Equations with other comments or tests are equal; a formula that cannot be compiled differs from itself (`C66_equation_counterexample`). The horizontal grid of a table is compared with the vertical grid of the other one, so that a table may differ from itself (`C66_table_counterexample`). A title line without cells is undefined (`C66_title_counterexample`).
* C67: `covar0` does not subtract the product of the means as the manual says (`C67_covar0_counterexample`). `acf` of a constant series and `app` with a related series that is zero at the nearest known value give 0/0 or x/0, not the missing value (`C67_constant_counterexample`, `C67_zero_counterexample`). `app` completes a series of zeros when the related expression has a value before the sample (`C67_only_zeros_counterexample`).
* C68: the manual promises the variables used; those with the name of an equation or identity examined are left out (`C68_all_counterexample`). A table with a cell for a formula that is empty makes the whole search fail (`C68_empty_cell_counterexample`); a formula that does not compile is passed over.
* C69: `@take` fills a text that is too short with blanks, `@drop` of an empty text leaves the call in the line, and numbers at the end of the range of `int` overflow (`C69_take_counterexample`). The manual's `@fmt(123,A0000A)` gives `A0123A`, a negative number is formatted modulo 2^64, a third argument makes the format ignored (`C69_fmt_counterexample`). The manual's `@vdrop(-1,A,B,C)` gives `A;B`; `@vtake` without any element reads a null pointer (`C69_vtake_counterexample`). An empty argument is not counted, so that `@replace(abc,b,)` stays in the line (`C69_empty_counterexample`).
* C70: with error correction the left side is put behind a minus without parentheses, so that `A - B := C` gives `(C -A - B)[-1]`; a comparison on the right side takes in the minus (`C70_priority_counterexample`). A comment `//` or a `;` at the end of the equation hides the end of the new one; a coefficient of blanks is a null pointer; a long name of a coefficient overflows the buffer (`C70_text_counterexample`).
* C71: the lists are written after removing all lists whose names start with the same letters: a list `_PREVIOUS` of the user is lost with `_PRE`, and the prolog is lost if its name starts with that of the block (`C71_names_counterexample`). `model_simulate_SCC` looks at the last character of an empty text for every model without prolog or without interdependent block (`C71_empty_undefined`). A name in the lists without equation is used as index -1 (`C71_stale_counterexample`).
* C72: the periods given to an import are checked but not used: all periods of the file are imported (`C72_periods_counterexample`). A blank line in the file of rules makes `IMP_readrule` read `buf[-1]` (`C72_blank_undefined`); a file that does not begin with `sample` makes `IMP_InterpretVar` call `clear` through a null pointer (`C72_header_undefined`). No variable is ever imported from rotated ascii, because the test that should create a missing variable is inverted (`C72_rotated_counterexample`). NIS, GEM and PRN set a shadowed flag and so read neither variables nor values (`C72_formats_undefined`). `import_var` with periods hands its arguments on in the wrong order (`C72_api_counterexample`). Seen but not modelled: the DIF header assigns the periodicity instead of comparing it and so fails; the Bistel key `ARDDNGPT` is misspelt.
* C73: a separator of blanks, such as a tab, is dropped, so that the columns are separated by blanks as if none had been given (`C73_tab_counterexample`). The number of rows that DIF files declare counts variables that fit no rule (`C73_dif_counterexample`), and DIF reports success when the file cannot be created (`C73_create_counterexample`). Comments are not quoted: one that contains the separator makes a further column, one of two lines makes a DIF file unreadable (`C73_comment_counterexample`). The number -1e37 is written `--` (`C73_limit_counterexample`). Without a file of variables a null pointer is used (`C73_file_undefined`), and `export_as` copies a sample through a null pointer whenever periods are given (`C73_api_undefined`). `save_csv` writes into a literal string unless separator and decimal point were set before (`C73_save_default_undefined`), takes the values from the first period whatever the sample given (`C73_save_sample_counterexample`, `C73_save_behind_undefined`), and writes 6 digits when more than 15 are asked for (`C73_digits_counterexample`).
* C74: only `std::runtime_error` is caught by the commands: a period or a name that cannot be read and a rename to an existing name throw `std::invalid_argument` out of the command (`C74_bad_period_counterexample`, `C74_bad_name_counterexample`, `C74_rename_refused`), and the variable made before the period was read stays. A name with nothing behind it reads behind the end of the text (`C74_nothing_undefined`), a mode without period a null pointer (`C74_no_period_undefined`). Names of more than 20 characters are cut and a character of the value is lost (`C74_long_name_counterexample`). A word such as `-x` is the value 0 (`C74_sign_counterexample`). The default text of an equation with a name of 19 or 20 characters overflows its buffer (`C74_long_equation_undefined`). `$DataDuplicateVar a A` deletes the variable (`C74_duplicate_counterexample`). Deleting `A* AB` fails half way (`C74_delete_twice_counterexample`).
* C75: an operation or a copy between overlapping ranges of one variable, the target beginning later, reads values that it has written: copying 0-2 to 1-3 repeats the first value (`C75_overlap_counterexample`; the second operand may come from a subset). Missing values are computed with: times -1 they become the number 2e37 (`C75_missing_counterexample`). `_c_operation_one_var` does not know how many values it gets (`C75_one_var_short_undefined`). `_c_add_var_from_other` takes the first variable of the source whatever its name (`C75_add_first_counterexample`) and refuses an empty database (`C75_add_empty`). Division by several values stops half way (`C75_period_zero`, `C75_one_var_zero`).
* C76: `split_multi` keeps the empty word between two separators, so two blanks between the periods refuse the sample and two blanks between the names stop the command with an exception (`C76_blanks_counterexample`). Any number is accepted as method (300 becomes 44) and a word is the method 0 (`C76_method_counterexample`). The names of `$EqsSetCmt` and `$EqsSetInstrs` are copied to 16 characters, so longer names are undefined (`C76_long_name_undefined`), and so is a name with nothing behind it (`C76_nothing_undefined`). The tests for a null pointer behind `get_obj_ptr` never hold: an unknown name is an exception (`C76_sample_unknown`, `C76_block_unknown`, `C76_text_unknown`).
* C77: an equation of the block that is not among the names given to `$EqsEstimate` is not in the subset that is estimated, so `KE_update` makes a new equation, which replaces the one of the workspace: its comment, its instruments and its block are lost (`C77_member_counterexample`; the theorems need `Inside`). A block with a name without equation frees the list of its names twice (`C77_member_undefined`). Results are numbered within each block, so that several equations estimated by themselves leave only the results of the last one (`C77_number_counterexample`). Nine of the twenty tests are never set before they are saved (`C77_rest_counterexample`). An equation that is not in its own block loses its tests (`C77_own_counterexample`).
* C78: the test uses the names `_DF`, `df_`, `df_d`, `df_t`, `df1`, …: objects of the user with these names are lost, the variable `_DF` even when the test is refused (`C78_names_counterexample`); after a test that succeeds the variables `_DF`, `_YCALC0`, `_YOBS0`, `_YRES0` and the scalars `e0_…` stay. From order 59 on, the text of the equation does not fit in its buffer (`C78_order_undefined`). `dickey_fuller_test` computes the standard error back from value and t-statistic, so that a coefficient of zero has none (`C78_zero_counterexample`), and when the standard error is zero the t-statistic is read without being set (`C78_no_error_undefined`). `$StatUnitRoot` with commas reads no order and an expression that begins with a comma (`C78_comma_counterexample`); a text with one word is read behind its end (same theorem).
* C79: `estimate` looks the equations of the block up in the workspace: a LEC that was edited in the session is not estimated and is overwritten (`C79_edit_counterexample`), and when an equation of the block is new the names of the block are freed twice (`C79_new_undefined`). The mark of an estimation stays when the block changes, so that `save` writes date and sample into equations that were not estimated (`C79_done_counterexample`). `update_scalars` removes a coefficient that an equation outside the block also uses (`C79_shared_counterexample`). `save` puts the scalars of the session into the workspace without copying them: a later estimation changes them without being saved (`C79_alias_counterexample`). A scalar of the session that the block does not use makes a successful estimation throw (`C79_unused_counterexample`). Not modelled: the constructor with its default (empty) periods always throws because `set_sample` parses the empty texts; the observed values before an estimation are read through a pointer that was not set.
* C80: the period at which a run of numbers starts is not spread in full: its first sub-period of a flow is missing and the others are not adjusted to its value (`C80_flow_first`), a stock gets nothing. Of a flow without missing values behind, the last two periods are lost, of a stock the last one (`C80_flow_counterexample`, `C80_stock_counterexample`, `C80_flow_missing`, `C80_stock_missing`); before a missing value the last sub-period of a stock is lost (`C80_stock_end`). Second derivatives are computed from the start of the run but read from the start of the series: when the series starts with missing values, or after a gap, the curve is not a spline (`C80_gap_counterexample`).
* C81: a series that is not seasonal but has negative values is stored with 1.1 times the smallest one taken off, because the variable is made before the values are restored (`C81_negative_counterexample`). A run shorter than a year is lost, as are the first values of a run that is not in whole years (`C81_short_counterexample`, `C81_outside`); numbers behind the first gap stay unadjusted. A constant quarterly series counts as seasonal (`C81_constant_counterexample`): the test divides the last quarter by the wrong number of years. Less than three years of a seasonal series read outside of the vectors (`C81_two_years_undefined`). The mean that replaces an outlier in the second year uses a ratio that was never computed (`C81_outlier_counterexample`).
* C82: only files with one period can be imported. `if(per->periodicity= DIF_freq)` (k_idif.cpp:146) assigns the zero it should compare with, so that the second period is refused; the caller then empties a database it has not made (`C82_one_period`, `C82_periods_undefined`). The same happens to a file without rows (`C82_rows_undefined`). A text in the place of a value is written through a null pointer (`C82_text_undefined`). Files the program exports as DIF have a heading that is no period, so that they cannot be imported (`C82_export_counterexample`).
* C83: `$FileCopyVar` and the like read the header of a database into a null pointer (`C83_database_undefined`; `update_filename`, k_objfile.cpp:1236). `$FileDelete` deletes nothing unless it is given exactly two names (`C83_file_delete_counterexample`; `B_ainit_chk(arg, 0L, 2)`, b_file.cpp:168). `$SysCopyFile a a` empties the file and succeeds (`C83_copy_itself_counterexample`). `$SysAnsiToOem` and `$SysOemToAnsi` empty the output when there is no input (`C83_failed_counterexample`). A suffix that is no type runs past the table of types (`C83_suffix_undefined`).
* C84: the tables have mistakes. `$SysAnsiToOem` turns À, Á and Â into other characters (`C84_ansi_oem_counterexample`) and 19 bytes, ø and ð among them, into what memory holds (`C84_ansi_oem_undefined`); 19 bytes of code page 850 do not come back (`C84_back_counterexample`). `$SysAnsiToUTF8` has the table of code page 850 for the bytes from 130 to 175: € becomes another sign (`C84_euro_counterexample`), and the byte 149 gives a file that is not in UTF-8 (`C84_bullet_counterexample`). `$SysOemToUTF8` loses ¬ (`C84_oem_utf8_counterexample`). A file converted onto itself is lost (`C84_itself_counterexample`).
* C85: a formula in a cell of a table is lost, since `T_cell_repack` takes a pack it has just made for one of the older version (`C85_cell_counterexample`; k_objvers.cpp:135). Equations and the rest of tables are not modelled.
* C86: a command that fails leaves a new variable with missing values behind (`C86_left_behind_counterexample`). A name of more than 20 characters is cut, the rest of it is dropped or read as part of the formula (`C86_long_name_counterexample`). A name without anything behind it is read beyond its end (`C86_name_alone_undefined`).
* C87: `$WsExtrapolate` with a method and one period makes a string of a null pointer (`C87_one_period_undefined`). A year with three zeros in front, which is a period otherwise, is taken for the method (`C87_short_year_counterexample`). Two separators between the periods of `$WsCopyVar` make them names, and the sample of the workspace is used (`C87_two_blanks_counterexample`).
* C88: `$IdtExecute` with a list that does not exist computes all the identities (`C88_unknown_list_counterexample`), and lists that are empty stand for all the equations or identities (`C88_empty_list_counterexample`). Parameters of the simulation that are no numbers or key words are not refused (`C88_wrong_words_counterexample`). A comma between the periods, which separates words elsewhere, is refused (`C88_comma_counterexample`). A list name of more than 19 characters is cut and what is left of it is the next name (`C88_long_name_counterexample`).
* C89: with no names, a list that does not exist or lists that are empty, `B_htol` and `B_ltoh` call a member function through a null pointer (`C89_no_names_undefined`); so they do when the workspace has no sample (`C89_no_sample_undefined`) or the file cannot be read (`C89_no_file_undefined`). The names have no effect on an ascii file, all of whose variables are converted (`C89_ascii_counterexample`, `C89_ascii_run_counterexample`). A method that is not known, lower case `s` and `c` among them, is linear interpolation (`C89_method_counterexample`).
* C90: of columns with the same period and files, as in the generalized sample `2001;2001/2000`, only the last one is in the series (`C90_same_period_counterexample`); of lines with the same name only the last one is (`C90_same_name_counterexample`). A table without a line that has `#` in its second cell has no columns, and `get_series` throws (`C90_no_title_counterexample`).
* C91: no word stands for the format of Bistel (`C91_bistel_counterexample`), and a word that stands for no format is read as ascii (`C91_unknown_format_counterexample`). A file that cannot be written is reported as a success (`C91_not_saved_counterexample`). The trace stays open when the periods are refused (`C91_trace_open_counterexample`), and is not written when there is a word behind it (`C91_extra_word_counterexample`). The periods asked for are only checked: the variables have the sample of the file (`C91_periods_counterexample`).
* C92: for periodicities other than yearly, quarterly and monthly neither the frequency nor the sample is written (`C92_other_counterexample`).

## Plan per property

| id | model | proof |
|----|-------|-------|
| C01 | `Period`, `shift`, `difference` over `Int` | division/modulo lemmas; linear position `nb*year+step` |
| C02 | character-level parser and printer | digits round trip by induction; the second half is false (step 0 and negative steps accepted): negation proved, rest `_partial` |
| C03 | `Sample` with 16-bit count | C01 + induction; counter-example for counts above 32767 |
| C04 | `intersection` on positions | C01, order reasoning |
| C05 | workspace as association list under the code's own operations | refinement to functions `Name -> Option Obj`, induction over histories |
| C06 | top database + list of children with heap addresses | invariant by induction; negation witnesses for `rename` with overwrite, merge etc. |
| C07 | key normalisation per type | proved for all types except comments, negation for comments |
| C08 | `check_name` as character predicate | invariant over histories |
| C09 | two independent states | frame lemma |
| C10 | `merge` | pointwise map equation |
| C11 | variables workspace with sample | invariant over histories |
| C12 | `set_sample` | pointwise equation on calendar positions |
| C13 | `KV_merge` | same |
| C14 | `KV_get`, `KV_set` over a field | algebra |
| C15 | `KV_init_values_1`, `KV_extrapolate` | loop invariant |
| C16 | packs as byte lists with offset table | induction on appends |
| C17 | record writer and reader with abstract lossless compressor | induction on records |
| C18 | `lower_bound` on sorted names | positive part for present names, negation for absent names |
| C19 | byte of the start year | negation with witness, partial for low byte /= 0 |
| C20 | file system with two files and steps of a save | invariant over all prefixes of the step sequence |
| C21 | `KL_lst`, `KL_expand` | induction; negations for cyclic lists (no result for any fuel) and empty lists |
| C22 | fold over files | induction |
| C23 | `SCR_grep_1` with recursion | equivalence with glob relation when no two `*` are adjacent; negation for `A**` |
| C24 | shunting-yard compiler and stack machine | compiler correctness by induction on expression trees |
| C25 | all token sequences | stack-depth invariant; negation for UB case `()` |
| C26 | NA rules of evaluation | induction on trees; negation for the whole-stack test |
| C27 | lag on postfix code | induction; negation for multi-argument functions |
| C28 | functions | negations with witnesses; positive laws for the other functions |
| C29 | evaluation as a function of environment | induction on code |
| C30 | `L_invert` on trees over the reals | induction along the path to the unknown; negations |
| C31 | `L_newton_sub` over uninterpreted numbers | loop invariant |
| C32-C34 | `order` | loop invariants |
| C35-C36 | `sub_simulate`, `simulate` | loop invariants |
| C37 | `find_path`, `exo_to_endo` | negation with witness; partial for paths that do not revisit the start |
| C38 | `KI_reorder` including the `continue` that skips the counter | soundness proved; completeness is false: negation |
| C39 | `KI_execute` | induction over the order |
| C40-C41 | `HTOL_smpl`, `B_htol`, `LTOH_step` | list lemmas; negation for sub-annual targets with unaligned start |
| C42 | `RasCalc` over an ordered field | algebra on finite sums |
| C43 | `COL_construct`, `COL_shift` | list lemmas; negation for left shifts of groups |
| C44 | line engine of reports with the macro stack | simulation of a scoped big-step meaning; negations |
| C45 | writers and readers of objects on packs of bytes | every reader inverts its writer on any block that begins with the pack; file level by C17 |
| C46 | writer and reader of tables with a running position | induction on cells and lines; negations |
| C47 | characters, pushed back text, tokens | refinement of the file to the stream of characters; each token by its spelling; induction on the laid out text; negations |
| C48 | printing and reading doubles, reader of elements with `YY_unread` | nearest decimal and binary numbers; induction on the laid out text; size of what is still to be read for the end; negations |
| C49 | cutting texts into lines, escaping, loops of the three loaders | the cutting function refines a relation on lines; induction on the laid out text; fixed points of save and load; negations |
| C50 | loop of the loader, defaults of missing values | lemmas of C48 for 14 digits; induction on the laid out text; negations |
| C51 | entries of an equation, what is left of each after saving and loading | induction on the laid out text; single precision numbers come back from 8 digits (Lemmas/Flt); negations |
| C52 | elements, cells, lines and settings of a table; what is left of each after saving and loading | induction on the laid out text; decimal numbers of six digits come back through a `float` (Lemmas/Fixed6); negations |
| C53 | the trend as a minimum; the first run of known values | the Schur complements of the matrix of the filter in closed form, with invariants on three numbers: the elimination never meets a small number; summation by parts |
| C54 | solutions, dependent columns, inverse | solution sets kept by row operations, back substitution; the sweep as an exchange between unknowns and right hand sides |
| C55 | residuals, sum of squares, weighted criterion, regression on instruments | the iteration is one step of the normal equations when the Jacobian is exact; a minimum of the criterion is a solution of the normal equations and conversely; positive definite weights; negations |
| C56 | mean, sums of squares, changes, square root | what every successful path of the estimation leaves; positive definite matrices (pivots, Schur complement, two by two minors); determinant by row operations; negations |
| C57 | first occurrences, scalars created later | a position is the number of names below; exactly when it still denotes the same name; induction on the equations; negations |
| C58 | subsets of a list of names, best test | the bits of the number of a round are all the subsets; invariant of the loop: the best of the rounds done; negations |
| C59 | quotients, steps between positions, sums over intervals, growth as an equation | exact conditions for a number to be shown; loops as sums over intervals; positions d + j dim; negations |
| C60 | values shown as quotients, rounding as distance, the difference of two workspaces | the right hand side as a product tree by induction on the grammar, C30 for the root; compilation of a text with a colon; negations |
| C61 | Spec/Aggr: a pattern as a list of parts, names of its form, the name of the aggregate, the values that go into it | by induction over the parts of the pattern (the text is read as the parts) and over the variables of the source (each aggregate is the fold of the values of its members) |
| C62 | Spec/Expand: a line as a list of pieces, how they are written and what they are replaced by | by induction over the pieces; the recursion of `RP_expand` is unfolded with a measure on the length of the text, and the scanners (`extract`, `extractPar`, `split`) are shown to find the ends of the pieces |
| C63 | Spec/Report: how commands are written, what is printed, the lines as `$goto` sees them, the joined lines, when a report ends | what each command does is an equivalence between the ends of the report from its line and from the line it leads to; more steps do not change the result (monotone in the fuel, by induction), so these compose; the loop over the arguments by induction over the arguments that are left; joining of lines by simulation between the report and its joined lines |
| C64 | Spec/Args: pieces between separators, what words mean (inductive relation with the depth), the value of words with unknown lists | the reader gives the pieces of a text without quotes, by cases on a word and what is behind it; a text gives its words one after the other; induction over the relation; for the exact value a double induction on the depth and the words; the second pass meets again the word that could not be replaced |
| C65 | Spec/LstCalc: names in the order in which they come first (by position in the list), filter, concatenations, combinations; a list that means words (Spec/Args) | adding to a table keeps the order of first positions (induction from the right); a text of words and separators is read back (C64); the two loops of a pattern are one pass over the combinations |
| C66 | Spec/Compare: the test of the manual; the four sets of names, each in the order of the names | invariant of the loop over the names (what was removed, what was added); names of objects are words of lists (C65, C64) |
| C67 | Spec/Mtfn: mean, covariance, nearest known value before and after, line through two points | sums over intervals of periods; the scan for the nearest value; Cauchy-Schwarz for the bounds; real powers for `app` |
| C68 | Spec/Scan: the names used, which are scalars, which are left out | invariant of the collection over names, formulas and objects; a list cut into parts is read back (with C21 and C64) |
| C69 | Spec/RepFn: places of a text, replacement from left to right, formats, the loop of the manual; Spec/LstCalc `Firsts` | induction over the text with the size of the buffer; words of a joined text; induction over names |
| C70 | Spec/DynAdj: sides of an equation, texts of a side as tokens and a tree of the grammar of Spec/LecManual | the text written is laid out as tokens again, so C47 and C25 apply; values by `eval_shift` of C27 |
| C71 | both sides are simulations; the lists by what expanding them gives | the lists of predecessors are the same with and without variables; the lists read back (C21); induction over linking |
| C72 | a file is a relation of rules, names and values to texts; the chosen rule is a relation | the reading of values is that of C48 for another table of key words; patterns by C23; induction over variables |
| C73 | readers of separated values and of DIF are written from the formats; a row is a relation of a variable and texts; a number is the nearest of 8 digits | splitting at a mark that is in no number, name or period; reading back by induction over rows; the sample by C39 |
| C74 | `Only` says which object differs; written numbers, modes and values entered are relations of Spec/DataCmd.lean | names are words that the readers of arguments keep whole; loops by induction over the names; values entered by induction over the positions with the earlier values in the result |
| C75 | `Shows`, `ShowsOne` and `Changed` say what differs between two states, in terms of what each database shows | objects are shared only within a family (invariants of C11); loops by induction over the positions with a condition that nothing is read after being written |
| C76 | `Given` says which equations differ and in what | the loop over the names by induction, each change being idempotent so that repeated names do not matter; the words of the argument from C64 and C74 |
| C77 | `Ran` says what was asked for, `EqsSaved`, `SclsSaved`, `VarsSaved` what differs, `HasResults` what an estimated equation holds | the loops by induction; that the texts of the equations stay is an invariant, from which the blocks of later rounds are those of the start; the names of the results are injective in number and test |
| C78 | `Run` is the first run of numbers, `Begins` the coefficients at the start, `Of` what a triple of the result holds, `Left` what the workspaces are after it | cases of the decisions; the sample through the distances of periods (C01); the text of the equation is laid out and read back with the lexer and the grammar (C47, C24) by induction over the order |
| C79 | `Good` is what agrees in a session, `Members` the names of a block, `Uses` the coefficients, `asSaved` and `SavedSample` what is saved; the results are those of C77 (`SclsSaved`, `VarsSaved`) | invariant by induction over the operations; `Quiet` (what an estimation leaves alone) is transitive and holds of each round; the block text is read back with C64 |
| C80 | `Natural` says what a natural cubic spline is, with the polynomials of the intervals; `Known`, `FirstRun` which periods have numbers | the loops are described block by block and run by run (`csLoop_spec`); any natural spline satisfies the equations of the elimination (`natural_fwd`, `natural_bwd`), which also gives existence and uniqueness |
| C81 | `Run` and `years` say which positions are adjusted, `pure` what a pure season is, `times` what another unit is | each step of the method commutes with a multiple and keeps a pure season (`dsVec_scale`, `dsVec_season`); the result is described position by position (`adjust_facts`) |
| C82 | `Toks` says how parts are written in the text, `File` which parts a file has, `Renamed` (C72) what the rules do | the reader follows the parts (`readHeader_head`, `varLoop_rows`), each cell and each skipped part by its own lemma |
| C83 | `Path` and `HasExt` say which file a name stands for, `Database` what a database looks like; words of arguments are those of C64; the rest is about contents of paths before and after | case analysis on each command; `C83_others` and `C83_failed_partial` go over all commands, `C83_sequence` by induction |
| C84 | `oem` and `ansi` are the published code pages, `utf8` the definition of UTF-8, `Plain` the letters | finite lemmas over the 256 bytes, lifted to files by induction; the table made at run time is described by `oemTbl_at`, by induction, for all contents of memory |
| C85 | `Old` says what a pack with words of 2 bytes is, `Entry` how a name is written, `Wrote` what an older program wrote for a text; the elements are those of C16 | the loop on the positions by induction (`fill_ok`), the bytes behind it by arithmetic (`pack16_ok`); files by induction over their records |
| C86 | `before` and `withSeries` say what the formula sees, `runText` (C29) what its value is | the loop by induction: at each step the series is the new values in front of the old ones (`calcLoop_spec`); the links stay valid since no name comes or goes |
| C87 | `Asked` says what the words of `$WsExtrapolate` ask for, `Sel` which variables names select, `Takes` when a sample is accepted | C12 and C15 for the effects; what `atoi` reads from a period (`atoi_period`), what `filter_names` gives for names (`filter_names`), the erasing of the periods (`erase_first`, `erase_skip`) |
| C88 | `Two` says that an argument is two words with blanks and a rest, `Order`, `Answer`, `Start`, `Whole` what words stand for; `value` is that of C64 | one word is read, whatever blanks are in front (`word_read`, `word_next`); tabs do not change the words behind (`pieces_tabs`); C64_exact for the names |
| C89 | `Holds` says what a file has and what loading names gives, `FileNames` and `MethodFileNames` how an argument is written, `Letter` which method a letter stands for; `Converts` and `Spreads` are those of C40 and C41 | the words are read (`word_read`), the names are those of C64, then C40_workspace_partial, C41_workspace_partial and `merge_spec` |
| C90 | `Alike` says that the periods of the columns have one periodicity, `Same` that two columns show the same files; the periods are those `seriesPeriods` lists, compared as periods, not as positions | `scan_spec` and `scan_ops` for the sample and the operations on files; `loop_spec`: the last column with a position counts, by induction over the columns; `positions_spec` and `resize_get` for the columns after resizing |
| C91 | `Wanted` and `Speaks` give the documented words for formats and languages, `Words` the words once the lists are replaced (C64), `Traced` the optional trace; the files saved, the traces written and the trace left open are compared | `strip_visible` for the words, `init_words` from C64, then by cases on the format and the trace |
| C92 | `joined` puts a blank behind each word, `Fits` says that a word has visible characters and room in a line; the values are compared as groups, one for each line, whose concatenation is the list of all values | `take_joined` and `cut_joined`: a line ends behind a word; `wrap_joined` by induction over the lines; `C92_lines` and `C92_text` for any text |
