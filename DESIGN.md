# Formal model of wallix/ppocr in Lean 4

The code under study is the C++ in `/repo` (read as text; never built or run here).
The model, specifications and proofs are in `lean/Verif`.

## Layout

* `Verif/Basic.lean` – outcome type, 32-bit arithmetic, memory access helpers.
* `Verif/Model/*.lean` – function-by-function model; each definition cites file and lines.
* `Verif/Spec/*.lean` – small independent specifications (no reference to the model's helpers).
* `Verif/Proofs/*.lean` – helper lemmas.
* `Verif/Tests/*.lean` – the unit tests of the project replayed on the model.
* `validation/` (beside `lean`) – programs that run the model on the data shipped with the project, and the results.
* `Verif/Props/*.lean` – property theorems, one file per area, each followed by a non-vacuity `example`.

## Modelling conventions

* **Outcome type** `Res α`: `ok a`, `throw` (a C++ exception leaves the function), `abort` (a failed `assert`), `ub`
  (undefined behaviour: out-of-bounds access, read of uninitialised memory, division by zero,
  violated precondition of a standard function), `diverge` (loop does not terminate).
  A theorem "f x = ok y" therefore includes memory safety and termination.
* **Integers**: `unsigned`/`size_t` as `Nat` with explicit wrapping operations wherever the code
  could wrap (`uadd`, `usub`, `umul` modulo 2^32); `size_t` (64 bit) sums of in-memory sizes are not wrapped.
* **Memory**: a buffer is a `List`; index outside = `ub`. Uninitialised cells are `none`.
* **Pointer loops** are modelled with index + fuel; running out of fuel is `diverge`, and the theorems
  show this never happens (or prove that it does).
  Forming a pointer more than one past the end is not counted as undefined, only reading or writing through it;
  copying a struct with an unwritten member is not counted either, only using the member.
* **The flood fill of `Zone`** reuses one heap buffer as stack and output; the model keeps the stack and the
  marks as two values and the capacity as a check (see `Model/Zone.lean`).
* **std::sort** is a parameter: any function returning a permutation sorted for the comparator
  (so theorems hold for every legal, unstable implementation).
* **double** probabilities are abstract: any type with a product, a total preorder and `n/100.` for which halving
  does not increase (`LawfulDbl`); this holds of non-negative IEEE doubles, so rounding is not assumed away.
  C60 and C61 also use that `n / 100.` grows with `n` up to 100 and that 1 is neutral for the order (`ScoreDbl`), which holds of IEEE doubles in [0, 1].
  C72 also uses that a product does not decrease when its first factor grows (`MonoDbl`), which holds of non-negative IEEE doubles.
  In `extract_text6` they are fractions; only 0 and 1 come up (`Prob6.Crisp`, proved), with which doubles calculate exactly.
  In `extract_text8` they are any type with `p * a / b` and a total preorder (`LawfulProb8`): a percentage of a number up to 1 is at most 1, and less than 1
  unless it is all of 1. That holds of IEEE doubles rounded to nearest.
  `Model/Double.lean` has these: multiples of 2^-1074 with 53 digits, `*` and `/` rounded to nearest even, without a greatest exponent. All the laws above
  are proved of them (the instances `MonoDbl Double` and `LawfulProb8 Double`), so every theorem about a lawful type holds of them.
* **`reinterpret_cast` in `extract_text6`**: the features of a letter, held in base classes of one object, are read as an array; the
  model takes them in the order of the base classes. Glyphs moved from and not assigned again are `ub` there (`unmoved`); this does not come up.
* **iostreams** follow libstdc++ in the C locale, on the functions used.

## Trusted base

* Lean 4.33.0 kernel; axioms `propext`, `Classical.choice`, `Quot.sound` only (checked by `#print axioms` / `vcheck`).
* The reading of the C++ source: each definition cites its lines; nothing ties the model to the code mechanically.
  The model agrees with all checks of the unit tests in `/repo/tests` (`Verif/Tests/Project.lean`) and with the
  outputs of `write_glyphs`, `normalize_glyphs` and `write_datas` that the project ships: the glyphs of all 1226 Latin pictures after normalisation and the 25 features of all 5465 glyphs are identical, byte for byte, and so are the features of the 9808 glyphs of the 1385 Cyrillic pictures and of the 12712 of both (`validation/README.md`).
* The stated behaviour of the C++ standard library and of POSIX `read`, `open`, `fstat`.
* That the compiler calculates with IEEE doubles rounded to nearest even (`Model/Double.lean`), not with more digits in between.
* Not modelled: memory exhaustion, wall-clock time, terminal output of the tools,
  legacy mains (`graphic_datas`, `tree`, `learning2`, `baseline_learning`, `stat_definitions`,
  `show_stats`, `normalize_learning`, `font2png`) and their helpers (`read_definitions_file_and_normalize`,
  `unique_sort_definition`). Except `font2png` they include headers that are not in the tree
  (`ppocr/factory/*.hpp`, `ppocr/filters/best_baseline.hpp`), so no program can be made of them.

## Per property plan

| id | modelled / how proved |
|---|---|
| C01-C04 | `Model/Image.lean`: `section`, `rotate90`, `clone`, `==` as buffer loops; refined to pixel functions by loop invariants. |
| C05 | `Model/ImageCompare.lean`; lexicographic order laws. |
| C06-C11 | `Model/ImageFile.lean`: header parser, three decoders, read loop with an arbitrary schedule. C08 is false of the code: negation with witness + partial. C07 false for width ≥ 2^32-7: negation + partial. |
| C12-C14 | `Model/Box.lean`: the three scanning loops with pointers as indexes; C14 false (last column): negation + partial. |
| C15-C20 | `Model/Features.lean`, `Model/DzDensity.lean`, `Model/Alternations.lean`: loops as folds; bounds by induction. |
| C21-C23 | `Model/Zone.lean`: flood fill with explicit stack, refinement to reachability. |
| C24-C25 | `Model/Relationship.lean`. C24 false for proportionality_zone (division by zero, asymmetry). |
| C26-C27 | `Model/Datas.lean`: histories of loads as lists of operations; `Proofs/Registry.lean` shows every registered feature defined on images of a stated size. |
| C28-C34 | `Model/Std.lean`, `Model/Ocr2.lean`; sorting as a parameter. C34 false: negation + partial. |
| C35-C38 | `Model/Filter.lean`: the shared candidate lists are positions in a list of lists; C36, C37, C38 false in general: negation + partial. `Props/FilterAll.lean`: the exact condition on the first box (`LowHeld`, `TopHeld`) under which the filter does not leave its buffer, and what it does on all such lines; the bottom of a first box lower than all others is not seen for the baseline and stays in the buffer as a top (`seenBottoms`, `leftTops`). |
| C39-C41, C43 | `Model/Utf.lean`, `Model/Trie.lean`, `Model/Disambiguouser.lean`; C43 false for multi-code-point last candidates: negation + partial. |
| C44 | `Model/Text.lean`: `disambiguous_with_dict` over the dictionary search of C43 and the word buffer of C47. The specification `Spec/Text.lean` cuts the letters at the boundaries, each part into punctuation and words, and takes for each word what the dictionary promises (C43) or the first candidates. False for the letters before the first one that is recognised and no punctuation (not shown, not counted; the space behind them lost): exact theorem for all lines, full claim for the others. |
| C45 | `Model/Replace.lean`: `replace_words` with `find` and `replace` of `std::string`. False in general (endless, or an occurrence left). Proved: when exactly it returns, that the result is the repeated rewriting of `Spec/Replace.lean`, and conditions on pattern and replacement for the full claim and for the textbook result. |
| C59 | `Model/Replace.lean`: the reader of replacements over the stream model; grammar of the entries as an inductive relation, total and unambiguous. |
| C60 | `Model/Setup.lean`: the strategies of `defined_loader.hpp` with the tables of a `PpOcrDatas`, and what the program prepares from its tables. The hypotheses of C29 and C31 are proved of it for all letters but the blocked ones (`Spec.Blocked`), which are shown to be undefined (`C60_exact`): the search through the other glyphs of a word, in the order of C33, comes to one with the zones of the letter that clashes with it (`Spec.Clash`: equally many zones on the border, a thin one in each; by `C24_pz_exact` exactly these comparisons divide by zero); counterexample for a wide letter (`propZone` divides by a percentage that rounds to zero). |
| C61 | A letter alike to a glyph for the 20 simple strategies has a perfect score and only such glyphs have; from C30 and C31 the candidates are one alike glyph per view id. Counterexample by C34 with the two diagonals of a 2x2 picture. |
| C62 | `readLine` in `Props/Program.lean`: the check of the tables and `extractText`, that is C13, C56, C60, C36, C35 and C44 in the order of the program. False for lines whose first letter is too low (C36): negation by a picture of two letters. `C62_exact`: a line is read if and only if its letters are `Compared` and the first one is `FirstHeld`, and is undefined otherwise; a letter that is `Unread` stops the loop over the letters (`lineLoop_ub`). The answer, the candidate lists and the text are proved for all lines that are read. A line of one letter is among them, given 16 GiB. |
| C63 | From C61 and C62: a letter all of whose alike glyphs stand for one word keeps a non-empty list of that word through both filters (C64, C35), and the text of such lists is the words with spaces (`Proofs/Spaced.lean`). False when the first word is only punctuation (the space is lost, C44); `spacedKept` says what is printed on every such line. A dictionary must not cut a text of several characters (`Uncut`, `C63_cut`). |
| C64 | Invariant of both passes of `filter_by_lines`: sublists, one-word lists unchanged (`Proofs/Shrink.lean`). |
| C65 | `loadFile` and `writeGlyphs` in `Model/Tools.lean`: the loop of C13 with a word read per letter. The words of a text are its pieces between blanks (`Spec/Tools.lean`). Induction over the loop; reading back is C46; `C65_main` states it for the whole command line. What an exception leaves unflushed of `std::cout` is not modelled. |
| C66 | `writeDatas` in `Model/Tools.lean`: `read_img` of C46, then lines are skipped. Induction over the glyphs of a file that C46 wrote; the table is that of C27, read back by C52. Images must be `Sized`; on a picture without pixels an `assert` fails, kept as a theorem. |
| C67 | `program` in `Model/Tools.lean`: `main` of `ocr2_extract_text.cpp` from the bytes of its files; `learnAndRead`: the three programs in a row. From C65, C66, C47, C52, C58, C50 and C63. False as stated for C63's reasons and for words of 4, 8, … bytes (C48): witness and `_partial`. |
| C68 | The loaders of `Model/Tools.lean` on the written contents followed by a text `r`, `Foreign` in `Spec/Damage.lean`: `check_read_file` looks at `eofbit` only, so each reader is followed to the state in which it leaves the stream. The glyph reader first drops a line without looking at it, the position reader first reads a word: false for one line behind the glyphs and one word behind the positions, witness and `_partial`. |
| C69 | The same loaders on a beginning of a text. `Cuts` in `Proofs/Cut.lean`: a reader on a beginning meets the end, or agrees with the reader on the whole, or the whole is refused; kept by sequences of extractions. Hence the claim is false in the strongest sense: every beginning of an accepted file is accepted, and a cut is noticed only through the number of glyphs. Witnesses, and a `_partial` for the cuts that this number reveals. |
| C70 | `NoThrow` in `Proofs/NoThrow.lean`, a class with an instance for each function of the model that the recogniser calls; the loaders and the image reader are the others. |
| C71 | `Proofs/NormalizeOrder.lean`: two sorted permutations by a strict order are equal (`sort_unique`); the sort by image is only strict up to equal images, so that only each group of equal images is permuted, and merging sorts its views (`mergeLoop_perm`). |
| C72 | `Proofs/SortFree.lean`: two sorts give the same classes of view ids (`viewsIndexes_classes`), the same candidates as sets, and a best candidate for the same classes (`best_partner`); with no ties the lists are equal (`best_same`). The loop over the letters is run side by side (`lineLoop_same`): only the scratch buffer differs. Negation by evaluating the program with two sorts. Assumes of `double`, besides, that a product does not decrease when a factor grows (`MonoDbl`). |
| C73 | `Model/Command.lean`: `show_glyphs` with its output, a list of bytes besides the outcome. `Proofs/Command.lean`: the printing of a picture is the frame of `Spec/Command.lean`; a frame is read back by its first line (`framed_inj`), a list of frames by the blank line behind each (`gallery_inj`). |
| C74 | `strtoul` as in the C standard for base 10 and a 64-bit `long`, then the conversion to `unsigned`; `lumOption_eq` gives the strings it accepts. False: numbers from 2^32 on wrap around and negative ones are accepted. Exact set of accepted strings, and the value used, proved. `C74_triples` states independently of `jobsOf` how the names behind the option are taken, three by three. |
| C75 | `Model/Session.lean`: the program once more with everything given to `std::cout` (a writer monad over `Res`). `Proofs/Session.lean`: run in step with the silent model of C56/C62 (`lookLetterOut_ok`, `lineLoopOut_ok`); a picture is printed exactly when it is not among those seen before, because the cache holds these. `Proofs/Outcome.lean`: the outcome of the printing program is that of the silent one for all files (`C75_outcome`), by the homomorphism `act_res_bind`; the pictures printed are of boxes within the line, so that printing them is always defined. What was given to `std::cout` before an exception may not be flushed by the C++ runtime; this is not modelled. |
| C76 | False twice: letters in front of the first word that nothing was found for are dropped without a `?` and without being counted (`C76_in_front`), and the rate is `100 * count`, or 0/0 (`C76_rate_exact`), since the condition on the divisor is inverted. Count proved for lines that begin with a recognised letter (from C62); when the rate is right proved exactly. The printing of a `double` that is a whole number is modelled in `showDouble`; `C76_rate_shown` proves it for all counts to be the nearest number of six digits (`Spec/Number.lean`). |
| C77 | `learnNormalized`: the four programs of the `learning` script in a row, one `write_glyphs` per group of lines. The merged glyphs hold the same pairs of picture and word (`Teaches`, from C51) and are not heavier, so the argument of C67 applies. False in general: a picture shown with two words is two glyphs before and one glyph with two views after, and the other word may win (`C77_two_words`). Proved: lines whose letters were shown with one word each (`C77_exact_partial`, `C77_same_partial`), and, for every line, that order and spread over the files do not matter (`C77_order`, from C71). |
| C78 | `Spec.Margins left top i i'` relates the two pictures cell by cell. `make_box_character` on the second finds the boxes of the first, moved (uniqueness of `CharBox`); the pictures cut out are equal, so the cache and the candidates are equal; `filter_by_lines` only uses differences of coordinates (`filterByLines_moved`; a line of one letter separately, since its `max` is 0, C36). No condition on the tables, glyphs or dictionary. False in general: a left margin that pushes the first letter behind column 4 makes a gap in front (`C78_left`), the last column is never read (`C78_last_column`, C14), one point alone in the second row is undefined (`C78_point`, C36), a single row with a blank end fails with an assertion unless a row is added (`C78_one_row`, C13). Memory is not bounded in the model: a line of one letter in row 2 or lower asks for almost 2^32 cells (C36). |
| C79 | `loadFile` and `writeGlyphs` on two pictures related by `Spec.Margins`: the next box is the same one moved (from C78), the section cut out is equal, so the streams and the output advance together. No gap test and no line filter here, so only the last column matters. False without a blank last column (`C79_last_column`: a block is learned as a bar) and for all lines of one row with a blank end to which a row is added (`C79_one_row`). |
| C80 | `Model/BoxTool.lean`: the loop and the command line of `box.cpp`. The output is a `listing` of places and framed pictures; it can be read back (numbers end at a byte that is no digit, frames as in C73), and the pictures laid at their places are the image (C01, C13, C14). False for `box -l`: `strtoul` is given the null pointer `av[2]` (`C80_no_value`). |
| C81 | `Model/ImageText.lean`: the function over the memory `pix_data` points to, terminator included; a read outside is `ub`. `Spec/ImageText.lean`: `Drawing`. All outcomes for a C string are told apart (`C81_exact`, `C81_empty`); the wrap of the area is `C81_wrapped`. |
| C82 | `Model/ImageText.lean`, `Model/GlyphIO.lean`: the four operators over the stream of `Model/Stream.lean`. `Spec/ImageText.lean`: `ReadsPair` in terms of `Num` of C57. |
| C83 | `Model/Text8.lean`: `indexes`, `duplicate` (positions in it), moved-from vectors as `none`, moved-from strings as a parameter; the overlapping `std::copy` is read as `memmove`. False: `C83_wrong`; the exact outcome for every table is `C83_exact_partial`, by counting the rows unlike the first. |
| C84 | `Model/Text6.lean` `toolLoad`: both exchanges. `toolLoad_eq` gives the value for every strategy. False: a column of three pixels (`C84_wrong`). |
| C85 | `Model/Text6.lean`: the tables (`order6`, `build6`) and `compute_image`. `Spec/Text6.lean` says which pictures are chosen without tables. The masks select the near pictures (`candidates6_ok`), probabilities are only 0 or 1 (`Crisp`), sorting and `unique` keep one per list of words (`sortShow_ok`), the exclusive filter is that of C29 (`reduceExclusive6_eq`); the order of the table is undone by `Moved6`. |
| C86 | From C85 with the letter itself. False: a column of three pixels, taught and not found (`C86_wrong`); `C86_lost` is the general form. |
| C87 | `Spec/Line6.lean` `saying` is the text. `textLoop6_ok` follows the loop run by run, the dictionary by C43. False: a quotation mark and a letter (`C87_wrong`). |
| C88 | `Model/Text6.lean` `letterStep6`, `lineLoop6`. The invariant `Inv6` ties the cache to the pictures seen; each letter is that of C85. |
| C89 | From C88. False: two columns when a block was taught (`C89_wrong`). |
| C90 | `program6`: `C46_round_trip` and `datasRead_write` for the files, `tables6_ok`, `line6_run`, `text6_ok`; `SameWords` removes `std::unique` on the words. |
| C91 | `Model/Letter8.lean`; `Spec/Letter8.lean` states the choice with features alone. `candidates8_ok`, `reduceComplex8_ok` and the masks of C85 give `letter8_run`. |
| C92 | From C91. False: a column (`C92_wrong`). An example shows a picture, near to itself, that loses against another one. |
| C93 | `program8`: the files as in C90, the tables from C83 (`tab8_ok`), the letters from C91. False: a block and a column (`C93_wrong`). |
| C94 | `Model/Double.lean`: rounding respects the order and leaves numbers with 53 digits alone (`round53_mono`, `round53_exact`); the number below 1 stays below 1 (`scale_below`). Then `exact8_iff`. |
| C95 | `Props/Learn6.lean`: C65 and the round trips of the files give C90 for the letters that were shown (`C95_results`); a letter that stands for one text is read as it (`stands6_reads`), and letters that are sure are printed with their texts (`saying_sure`). False: a column is not recognised again (`C95_lost`, C86), and separators at the start of a line are lost (`C95_mark`, C87). |
| C96 | `Props/Rounding.lean`: each conversion and product rounds by one part in 2^53 (`round53_err`), 23 factors of at least 1/2 stay normal (`product_rounded`), so `C96_error`; orders and the limit at half of the best agree where exact products are apart by one part in 2^40 (`computeImage_rounding`). False: the same percentages in another order give other doubles (`C96_tie`). |
| C97 | `Model/Learning.lean`: the commands of the script over the models of the three programs, with `> file` and `&&`; which names the patterns of the shell stand for is given. `Props/Learning.lean`: C65 for each run, C51/C71 for the normalised files, C66 for the features; `C97_reads` adds C77. False for failures: a blank in the name of a font makes `normalize_glyphs` fail when the shell has already emptied the file it writes (`C97_emptied`). |
| C98 | `Spec/Beside.lean`: `Part` (columns that show a picture), `Beside`. `Proofs/Beside.lean`: the box of a letter is determined by what C12 says of it, and this is the same in the part and in the whole; induction over the loop of the first part, then of the second. `Props/Beside.lean`: lifted with C65 and C73. The blank column is needed: `C98_no_blank`. |
| C99 | `Spec/Supplement.lean`: `Far`, `Within` (the first table in the second one), `Added`, `NewWords`. False (`C99_false`, `C99_programs`): a glyph that is the only one of its word is not asked for its zones, but once a far glyph of the same word is learned, that one is asked instead of it (C32), and the letter is lost; and the ids of C34 change (`C99_second_lost`). `Proofs/Supplement.lean`: the candidates of both tables correspond (`Moved`), so do the best ones of each id (`Best` of C31) and the letters that divide by zero. The program level follows from C67. |
| C100 | `Spec/Alike.lean`: `AlikeLines` (boxes of C12/C13, `Pictures`, rows, `Gap`) and `Widened`. `Proofs/Alike.lean`: the loops on both pictures run in step, only the boxes differ, and those in their columns only (`lineLoop_alike`); the line filter looks at rows only (`filterByLines_rows`). With all letters moved down by the same number of rows the filter is that of C78 (`C100_moved`, with its exception of one letter one row high). `C100_wider` builds the two lines from the same parts by C98. |
| C101 | No new specification: outputs of the two tools are compared. What is shown determines the pictures (`gallery_inj` of C73), the pictures and the text determine what is written (C65), and what is written determines the pictures (C46). A run that ends well was divided into letters (`showLoop_done`, `glyphsOfLoop_done`). |
| C102 | `Spec/Alike.lean`: `SameLetters`. The loops run in step (`lineLoop6_same`); a space in front of the line is a candidate list that the text skips (`text6_front`, with `textLoop6_fuel`); the results that do not see the spaces are followed by `lineLoop6_unspaced`. Margins are brought to `SameLetters` by `segmentFrom_margins`. The lemmas hold for every `compute_image`, hence for both programs. |
| C103 | `Spec/Parts6.lean`: `TextParts`. The boxes and pictures of the parts come from C98; the readings are a function of the picture (`line6_reading`), so the candidates of the line are those of the parts (`letterWords_append`, `withGaps_append`, `withGaps_moved`; `letterWords_known` for letters seen in the left part); the text is cut at the space (`saying_stop`). `C103_unknown` is the witness for the condition. |
| C104 | Both filters look at the whole line. `C104_font`: a letter learnt in two fonts with two words is read `l` alone and `m` before letters of the second font, hence `C104_false`. `C104_read_partial`: for letters that stand for one word each (C67) the texts are put together by `spacedKept_parts`, with boxes and pictures from C98. `C104_marks` shows why the first word of the right part must not be only punctuation. |
| C105 | Spec/Dictionary.lean says what two texts of the same letters may differ in (`Retold`). `readLine_dict` and `extract6_dict`: the candidates of the letters do not depend on the dictionary, and the text is that of C44 or C87 for them. `segText_retold`, `saying_retold` compare these for two dictionaries, `segText_agree`, `saying_agree` for dictionaries that agree on the words the glyphs can spell. |
| C106 | Spec/ByComparison.lean: a `std::sort` that uses its elements only by comparing them (`ByComparison`; `insertionSort_byComparison` shows one). For such a sort `Read6` in Proofs/Shown6.lean describes the answer for a letter by the sets of the near and of the kept glyphs alone: the candidates are sorted by words and made unique before the sort by match, so the list the second sort gets is determined (`Listing.unique`). `Read6` does not change with the order (`Moved6.read`), and mentions of a glyph only its picture and words (`pictured`). |
| C107 | Proofs/More6.lean: near glyphs, kept glyphs and twins for `gs ++ more` in terms of those for `gs` (`near_left`, `kept_more`, `twin_more`), hence `read_more` and `jam_more`; with C106 for the order. `C107_false`: a block with a hole, and a bar of the same word. |
| C108 | `letter6_sorted` (Proofs/Shown6.lean) gives the reading of a letter from some order of the candidates with the matching ones in front (`FlagSorted`), for any conforming sort. Proofs/SortFree6.lean: `same_heads`, `same_words`; for the converse `rotatingSort k` takes the k-th of equivalent elements first (`read_best`), and the spaces of the first result separate the words (`eachSpaced_inj`). |
| C109 | `Course.taught6` (Props/LessonOrder.lean): what the two tools write for the lessons is what C106 asks for; so C106 applies to the letters taught. For ocr2_extract_text the conditions of C67 speak of the set of the letters taught only. Counterexample: the same line learnt as `a ! a` and `a ! b`. |
| C110 | Proofs/Again6.lean: the near, matching and kept glyphs of a letter, by their words, depend only on which pairs of picture and words occur, and which occur twice (`counts_in`, `near_in`, `match_in`, `kept_in`, `jam_in`); with `Course.taught6` of C109 for the lessons. For ocr2_extract_text C67 speaks of the set of the letters taught only. Counterexamples: a block with a hole and the same with a notch; the line `a ! b` learnt once and twice. |
| C111 | Spec/Drawing.lean gives the formats as netpbm defines them (`DrawnAs`), without the loader. Props/Drawing.lean puts C06 and C07 into one picture (`whiteOn`), C08 for the text format, C10 for the reading; the programs see the file only through `loadImage`. |
| C112 | Spec/AnyDict.lean: `StaysInside`, on the nodes only. Proofs/AnyDict.lean follows the search in an arbitrary dictionary (`disambiguous_any`): it finds the first choice of candidates that the nodes accept, and for the letters of a line there are finitely many choices, so that the dictionary acts as a list of words (`searchesOn_of_inside`). The lemmas behind C44 and C105 are stated for any dictionary that acts as a list of words. `std::lower_bound` on nodes that are not sorted is outside its contract; the model has the binary search of libstdc++ (trusted base), which ends within the range whatever the order. |
| C113 | Spec/AnyDatas.lean: `Whole`, `NoWrap`, `Divides`, on the tables only. Proofs/AnyDatas.lean: what the loader makes has the registered strategies and values of their shape (`loadDatas_shaped`); each strategy is defined on any such values, because the distance filter of a simple strategy removes far values before their likeness is computed; hence the tables are as the theorems on the recogniser ask for (`setup_any`). With `readLine_searched` the line follows for any dictionary that stays inside (C112). |
| C114 | Spec/AnyGlyphs.lean: `Utf8` (the text is the encoding of characters), `OddSizes` (on `get_word(i).size()`). Proofs/AnyGlyphs.lean: a UTF-8 text can be cut at ASCII characters (`utf8_cut`), so each extraction leaves UTF-8; an invariant of the loader (`Reading`): the words so far are tokens of the text, numbered without gaps, and take less room than the bytes that were read; hence `rglyphsRead_any`, the four ways in which loading ends. The program follows with C113. |
| C115 | Spec/AnyInfos.lean: `Overruns ws s`, on the words in their order alone. Proofs/AnyInfos.lean: the loop of `word_index_of` on a buffer of blocks, exactly, with the undefined case (`wordIndexLoop_exact`); as a search in the list of words (`searchRes_eq`). The same gives C49 exactly, up to words of 4, 8, ... bytes that are a proper prefix. With C57 (which entries a text has) and C50 (the sorted table) this gives `C115_load`, and with C113 and C114 the program. |
| C116 | Spec/AnyDatas6.lean: `InCategories`, `Gives6` (words of the glyphs or `_`). Proofs/AnyDatas6.lean: what a text gives as features (`loadDatas_fits`: each strategy has all values or none); the sort of the glyphs with them (`order6_any`, `order6_ub`); the tables (`build6_ub`, `build6_empty`); a letter (`letter6_any`, like C85 but with any values). |
| C117 | Proofs/AnyDatas8.lean: with any values no sum of the simple strategies wraps around (`inInterval_any`, `factor8_any`), since the value of the letter is at most 200; a letter (`letter8_any`, like C91 but with any values); the tables (`tab8_any`); features that are not whole (`prepare8_ub`: each step is done or undefined, and the last one reads the missing column). |
| C118 | `Spec/Grown.lean`: `Grown` and `BothTold` relate the texts piece by piece. `Proofs/Grown.lean`: with the letters fixed, the text is a fixed sequence of pieces and of words that are looked up (`segText_looks`, `saying_looks`); `List.find?` with a weaker condition gives the same or an earlier element (`find?_weaker`), with one of two conditions it gives what one of them gives (`find?_either`). The letters do not depend on the dictionary (C105). |
| C119 | `Spec/Enlarged.lean`: `Enlarged k i j` says that `j` is `i` blown up; `scaleFree` lists the six columns. `Proofs/Enlarged.lean`: masses are multiplied by k², blocks of full rows and runs are kept, a path of background cells of one picture gives a path in the other (`conn_shrunk`, `conn_grown`), so the zones correspond in order (`zones_enlarged`) and their lengths along the borders are multiplied by k. One picture of 5 by 5 shows that the other 19 columns change. |
| C120 | `Spec/EnlargedLine.lean`: `scaledBox`, `AllEnlarged`. `Proofs/EnlargedLine.lean`: blank columns and joined columns of the two pictures correspond (`joined_within`, `joined_across`), the conditions of a box (C12) determine it (`box_enlarged`), and the loop follows (`segmentFrom_enlarged`). That no other line will do: the last column is covered in the larger picture and lost in the smaller (C14), a single row with a blank last column fails an assert (C13). |
| C121 | `Spec/Ends.lean`: `Under4G`. In the model a loop that does not stop runs out of fuel and gives `diverge`, so the claim is that the fuel always suffices. `Proofs/Ends.lean`, `Proofs/Ends6.lean`: a class `Ends` with an instance for each function; a measure for each loop (bytes left in the stream, columns left of the picture, letters left of the line, codes left of a candidate, nodes left of the trie). The segmentation comes to an end by C12. `Proofs/EndsFeatures.lean` shows that each feature ends on any picture that has as many cells as its bounds say, also where it is not defined (C26 needs a smaller picture): a pointer that goes by rows meets the end, and the flood fill of the zones takes a cell that has no label yet or shortens its stack. `Proofs/EndsTools.lean` and `Proofs/EndsDatas.lean` do the same for `show_glyphs`, `box` and `write_datas`; for `normalize_glyphs` it is part of C51. For the walk over the words of the glyphs the table has to be the one the loader makes (C114). |
| C122 | `Spec/Compiled.lean`: `Beginnings` (a list without duplicates of the non-empty prefixes of the words). `Proofs/Compiled.lean`: every node of the trie leads to a word (`insertAfter_alive`: an empty group would never end), so the ways into it are the prefixes; different nodes have different ways because siblings are strictly increasing; what is written can be read back (C42) and so determines the nodes; the nodes determine the words (C40). |
| C123 | `Spec/Threshold.lean`: `Scan`, `brightAt`, `SameSides`, `Noisy`. `Props/Threshold.lean`: by C06 the picture read is that of the places reaching the luminance; a picture determines which places are letters; the rounded terms of the brightness are bounded by linear arithmetic. |
| C124 | `Spec/Turned.lean`: `Reflected`, `turnFree`, `mirrorFree`; `HalfTurn` as for C18. `Proofs/Turned.lean`: a row read backwards has the same mass in every symmetric span; there are as many ends of bars as beginnings. One letter of five by five cells changes all other columns both ways (evaluated by the kernel), which gives the exact lists. `Proofs/TurnedZones.lean`: a rearrangement of the cells that keeps background and neighbours carries zones to zones, so the list of first cells is a permutation of the carried one and every count by side follows. |
| C125 | Over the model of C51. `Proofs/NormalizeParts.lean`: `Merged` (C51) of merged parts is `Merged` of the whole; it leaves open only the order and the repetition of the views, and ordered views stay ordered (`C71_views`). `C125_files` adds the round trip of the files (C46), `C125_script` the runs of the script (C97). |
| C126 | Over the models of C65, C73 and C80. `Spec/Shell.lean` says what `a && b` prints and how it ends. `Proofs/RunsInParts.lean`: induction over the loop of `main`; the command lines by C74; `C126_learning` is about the loops of the script (C97). All outcomes are compared, also aborts and undefined behaviour, with what was given to `std::cout` before; what stays in its buffer then is not modelled. |
| C127 | `Box.eq` in `Model/Box.lean`. False: `operator==` compares the bounds only. Exact behaviour, and by C13 what it means for the letters of a line. |
| C42, C58 | `Model/Stream.lean` (istream/ostream), `Model/DictIO.lean`. C58 false for several files and for blank lines: negation + partial. |
| C46 | `Model/GlyphIO.lean`: the learning loader. Round trip by induction on the list; totality because every pass consumes input. |
| C47-C49 | `Model/Glyphs.lean`: the recogniser's loader, the word buffer as bytes (`none` = never written), `word_index_of`. All three false in general (glyph without views; words of 4, 8, ... bytes; prefixes): negations, exact conditions and partial theorems. |
| C50, C57 | `Model/WordLines.lean`; the grammar of entries is `Spec/WordLines.lean`, independent of the stream. C50 on top of the search of C49. |
| C51 | `Model/Normalize.lean`: sort, find the first equal pair, merge groups. |
| C52 | `Model/DatasIO.lean`; round trip by a combinator for readers that undo writers. A truncated file is accepted with columns of unequal size (`C52_cut_file`), and so is a file with only a count that does not fit in 64 bits (`C52_count_too_great`). |
| C53 | `Model/Datas.lean`. |
| C54 | `Model/Reindex.lean`: a moved-from cell is `none`. Induction on the indexes. |
| C55 | `Model/ImageContext.lean`: a heap of blocks, `unique_ptr` as a place in it; deleting twice, inside a block, or access outside is undefined. Invariant over any sequence of calls. False between a call of `img` that grows the buffer and the next `img90`. |
| C56 | `Model/Cache.lean`: the map as the list of its nodes in key order. `Model/ExtractText.lean`: the loop of the program with the image context of C55, the segmentation of C13, `compute_image` of C31. Invariant: the different pictures so far, in order of appearance, and the place of the list of each. |
