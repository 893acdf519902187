{
 "claims": [
  {
   "property": "C01",
   "status": "proved",
   "theorems": [
    "Ppocr.Props.C01_section"
   ],
   "note": ""
  },
  {
   "property": "C02",
   "status": "proved",
   "theorems": [
    "Ppocr.Props.C02_rotate90"
   ],
   "note": ""
  },
  {
   "property": "C03",
   "status": "proved",
   "theorems": [
    "Ppocr.Props.C03_four_turns",
    "Ppocr.Props.C03_same_pixels"
   ],
   "note": ""
  },
  {
   "property": "C04",
   "status": "proved",
   "theorems": [
    "Ppocr.Props.C04_clone",
    "Ppocr.Props.C04_clone_empty",
    "Ppocr.Props.C04_eq",
    "Ppocr.Props.C04_clone_eq"
   ],
   "note": "clone of an empty image fails its assert (C04_clone_empty)."
  },
  {
   "property": "C05",
   "status": "proved",
   "theorems": [
    "Ppocr.Props.C05_compare",
    "Ppocr.Props.C05_trans",
    "Ppocr.Props.C05_total"
   ],
   "note": ""
  },
  {
   "property": "C06",
   "status": "proved",
   "theorems": [
    "Ppocr.Props.C06_p6",
    "Ppocr.Props.C06_no_overflow"
   ],
   "note": ""
  },
  {
   "property": "C07",
   "status": "partial",
   "theorems": [
    "Ppocr.Props.C07_p4_partial",
    "Ppocr.Props.C07_small_file_rejected",
    "Ppocr.Props.C07_wide_out_of_bounds"
   ],
   "note": "False of the code for 8-byte files (rejected) and widths above INT_MAX (32-bit wrap, out-of-bounds read); proved for all others."
  },
  {
   "property": "C08",
   "status": "partial",
   "theorems": [
    "Ppocr.Props.C08_ascii_partial",
    "Ppocr.Props.C08_exact_rejected",
    "Ppocr.Props.C08_uninitialised"
   ],
   "note": "False of the code: exact-size ASCII files are always rejected and every accepted one has an uninitialised pixel; both negations are proved for all files."
  },
  {
   "property": "C09",
   "status": "partial",
   "theorems": [
    "Ppocr.Props.C09_outcome_partial"
   ],
   "note": "Holds for every byte string except P4 headers of width above INT_MAX, where undefined behaviour is reachable (C07_wide_out_of_bounds)."
  },
  {
   "property": "C10",
   "status": "proved",
   "theorems": [
    "Ppocr.Props.C10_short_reads",
    "Ppocr.Props.C10_env_errors",
    "Ppocr.Props.C10_shrunk_file",
    "Ppocr.Props.C10_shrunk_undefined"
   ],
   "note": ""
  },
  {
   "property": "C100",
   "status": "proved",
   "theorems": [
    "Ppocr.Props.C100_letters",
    "Ppocr.Props.C100_moved",
    "Ppocr.Props.C100_wider",
    "Ppocr.Props.C100_limit"
   ],
   "note": "Whatever the files hold and whatever happens (text, error, undefined behaviour). C100_wider: k blank columns behind five blank ones, for lines of two rows or more. C100_limit: the limit of four columns does count."
  },
  {
   "property": "C101",
   "status": "proved",
   "theorems": [
    "Ppocr.Props.C101_line",
    "Ppocr.Props.C101_back",
    "Ppocr.Props.C101_lines",
    "Ppocr.Props.C101_read",
    "Ppocr.Props.C101_not_read"
   ],
   "note": "C101_not_read: two lines that are shown alike need not be read alike (the spaces count, C100)."
  },
  {
   "property": "C102",
   "status": "proved",
   "theorems": [
    "Ppocr.Props.C102_letters",
    "Ppocr.Props.C102_margins",
    "Ppocr.Props.C102_wider",
    "Ppocr.Props.C102_results"
   ],
   "note": "Stronger than C78 and C100 for ocr2_extract_text, where the gap before the first letter and the rows count. C102_results is stated for extract_text6."
  },
  {
   "property": "C103",
   "status": "proved",
   "theorems": [
    "Ppocr.Props.C103_program6",
    "Ppocr.Props.C103_program8",
    "Ppocr.Props.C103_unknown"
   ],
   "note": "For extract_text8 with glyphs of the same features only, the case in which C93 describes the program."
  },
  {
   "property": "C104",
   "status": "partial",
   "theorems": [
    "Ppocr.Props.C104_false",
    "Ppocr.Props.C104_font",
    "Ppocr.Props.C104_read_partial",
    "Ppocr.Props.C104_marks"
   ],
   "note": "False of the code: the font filter votes over the whole line (C104_font). Proved: lines whose letters stand for one word each, learnt words of sizes that are no multiple of 4 (C48), first letters with a cell in the line filter (C36), left part and first word of the right part not only punctuation (C104_marks)."
  },
  {
   "property": "C105",
   "status": "proved",
   "theorems": [
    "Ppocr.Props.C105_program",
    "Ppocr.Props.C105_same_words",
    "Ppocr.Props.C105_program6",
    "Ppocr.Props.C105_program8"
   ],
   "note": "Files that the program loads (C62) or that the learning tools write (C90, C93); undefined behaviour is the same with every dictionary."
  },
  {
   "property": "C106",
   "status": "proved",
   "theorems": [
    "Ppocr.Props.C106_order"
   ],
   "note": "Assumes of std::sort, besides the standard's contract, that its result depends on the outcomes of the comparisons only. Letters that may divide by zero (Jam6) are excluded: for these the order matters."
  },
  {
   "property": "C107",
   "status": "partial",
   "theorems": [
    "Ppocr.Props.C107_false",
    "Ppocr.Props.C107_lost",
    "Ppocr.Props.C107_more_partial",
    "Ppocr.Props.C107_kept_partial"
   ],
   "note": "The full statement is false of the code (C107_false, C107_lost). Proved: the same results for further glyphs with new words, and that exact matches stay candidates whatever is learnt."
  },
  {
   "property": "C108",
   "status": "partial",
   "theorems": [
    "Ppocr.Props.C108_false",
    "Ppocr.Props.C108_oh",
    "Ppocr.Props.C108_exact",
    "Ppocr.Props.C108_results_partial",
    "Ppocr.Props.C108_settled_partial",
    "Ppocr.Props.C108_order_partial"
   ],
   "note": "The full statement is false of the code (C108_false). Proved: the exact condition for the first result, and conditions for all three. The condition for the text is sufficient, not necessary."
  },
  {
   "property": "C109",
   "status": "partial",
   "theorems": [
    "Ppocr.Props.C109_false",
    "Ppocr.Props.C109_turned",
    "Ppocr.Props.C109_letters6",
    "Ppocr.Props.C109_lessons6",
    "Ppocr.Props.C109_sure_partial"
   ],
   "note": "Holds for extract_text6 (C109_lessons6). False for ocr2_extract_text (C109_false); there it is proved for letters shown with one word only (C109_sure_partial)."
  },
  {
   "property": "C11",
   "status": "proved",
   "theorems": [
    "Ppocr.Props.C11_monotone"
   ],
   "note": ""
  },
  {
   "property": "C110",
   "status": "partial",
   "theorems": [
    "Ppocr.Props.C110_false6",
    "Ppocr.Props.C110_false",
    "Ppocr.Props.C110_lost6",
    "Ppocr.Props.C110_turned",
    "Ppocr.Props.C110_twice_partial",
    "Ppocr.Props.C110_matched_partial",
    "Ppocr.Props.C110_third_partial",
    "Ppocr.Props.C110_sure_partial"
   ],
   "note": "The full statement is false of both programs (C110_false6, C110_false). Proved for extract_text6 from the second time on, and at once for letters that match; for ocr2_extract_text for letters shown with one word."
  },
  {
   "property": "C111",
   "status": "partial",
   "theorems": [
    "Ppocr.Props.C111_false",
    "Ppocr.Props.C111_dim",
    "Ppocr.Props.C111_four",
    "Ppocr.Props.C111_p1_refused",
    "Ppocr.Props.C111_p6_exact",
    "Ppocr.Props.C111_p4_partial",
    "Ppocr.Props.C111_p6_partial",
    "Ppocr.Props.C111_programs_partial"
   ],
   "note": "The full statement is false of the code (C111_false for P1, C111_dim for the greatest value). Proved: P1 is always refused, P6 exactly for every greatest value, P4 and P6 with 255 the full claim, also for the programs."
  },
  {
   "property": "C112",
   "status": "partial",
   "theorems": [
    "Ppocr.Props.C112_false",
    "Ppocr.Props.C112_root",
    "Ppocr.Props.C112_search_partial",
    "Ppocr.Props.C112_compiled",
    "Ppocr.Props.C112_words",
    "Ppocr.Props.C112_program_partial",
    "Ppocr.Props.C112_program6_partial",
    "Ppocr.Props.C112_program8_partial"
   ],
   "note": "The full statement is false of the code (C112_false, C112_root). Proved for dictionaries whose nodes do not lead out of them, for the search and for the three programs."
  },
  {
   "property": "C113",
   "status": "partial",
   "theorems": [
    "Ppocr.Props.C113_false",
    "Ppocr.Props.C113_cut",
    "Ppocr.Props.C113_wrap",
    "Ppocr.Props.C113_program_partial",
    "Ppocr.Props.C113_picture_only_partial",
    "Ppocr.Props.C113_learnt"
   ],
   "note": "The full statement is false of the code (C113_false by a file cut short, C113_wrap by a percentage near 2^32). Proved for files with all values, no percentage that wraps, and letters whose percentages are not 0 together with those of the file; the outcome is exact in these cases, with the known exception of C62. C113_learnt: the features of pictures are such."
  },
  {
   "property": "C114",
   "status": "partial",
   "theorems": [
    "Ppocr.Props.C114_false",
    "Ppocr.Props.C114_no_view",
    "Ppocr.Props.C114_missing_view",
    "Ppocr.Props.C114_latin1",
    "Ppocr.Props.C114_load",
    "Ppocr.Props.C114_load_undefined",
    "Ppocr.Props.C114_known",
    "Ppocr.Props.C114_program_partial",
    "Ppocr.Props.C114_picture_only_partial"
   ],
   "note": "The full statement is false of the code (C114_false by a glyph without views). C114_load and C114_load_undefined are about any text. Proved for the program: UTF-8 texts whose glyphs all have a view and no word of 4, 8, ... bytes; C114_latin1 shows that words not in UTF-8 may lead the search outside."
  },
  {
   "property": "C115",
   "status": "partial",
   "theorems": [
    "Ppocr.Props.C115_false",
    "Ppocr.Props.C115_overrun",
    "Ppocr.Props.C115_load",
    "Ppocr.Props.C115_program_partial"
   ],
   "note": "The full statement is false of the code (C115_false by a word of five bytes). C115_load says exactly when, for any table text and any glyph text without words of 4, 8, ... bytes. The program: under the conditions of C114."
  },
  {
   "property": "C116",
   "status": "partial",
   "theorems": [
    "Ppocr.Props.C116_false",
    "Ppocr.Props.C116_category",
    "Ppocr.Props.C116_wrap",
    "Ppocr.Props.C116_size",
    "Ppocr.Props.C116_undefined",
    "Ppocr.Props.C116_program_partial"
   ],
   "note": "The full statement is false of the code (C116_false by a value of 210). C116_undefined: when it is undefined for all pictures. C116_program_partial: all other cases but percentages of 2^32 - 100 and more, for which C116_wrap has the examples."
  },
  {
   "property": "C117",
   "status": "partial",
   "theorems": [
    "Ppocr.Props.C117_false",
    "Ppocr.Props.C117_rows",
    "Ppocr.Props.C117_wrap",
    "Ppocr.Props.C117_size",
    "Ppocr.Props.C117_undefined",
    "Ppocr.Props.C117_program_partial"
   ],
   "note": "The full statement is false of the code (C117_false by one value). C117_undefined: when it is undefined for all pictures. C117_program_partial: all glyphs with the same features. Missing: exactly two glyphs with other features than the first (see C83), a single glyph with features that are not whole."
  },
  {
   "property": "C118",
   "status": "proved",
   "theorems": [
    "Ppocr.Props.C118_program",
    "Ppocr.Props.C118_unspelled",
    "Ppocr.Props.C118_joined",
    "Ppocr.Props.C118_program6",
    "Ppocr.Props.C118_program8",
    "Ppocr.Props.C118_unspelled6"
   ],
   "note": "Only the first character of the last candidate of a word counts in the search (C43), and so in SpelledBy and Widens. extract_text8 with glyphs of the same features (C93)."
  },
  {
   "property": "C119",
   "status": "proved",
   "theorems": [
    "Ppocr.Props.C119_exact",
    "Ppocr.Props.C119_free",
    "Ppocr.Props.C119_density",
    "Ppocr.Props.C119_proportionality",
    "Ppocr.Props.C119_hbar",
    "Ppocr.Props.C119_zone",
    "Ppocr.Props.C119_propZone",
    "Ppocr.Props.C119_halves",
    "Ppocr.Props.C119_sides",
    "Ppocr.Props.C119_alternations"
   ],
   "note": "That 19 columns change is observed on the model with a picture of 5 by 5 doubled to 10 by 10."
  },
  {
   "property": "C12",
   "status": "partial",
   "theorems": [
    "Ppocr.Props.C12_make_box_partial",
    "Ppocr.Props.C12_total",
    "Ppocr.Props.C12_single_blank_row",
    "Ppocr.Props.C12_huge_image"
   ],
   "note": "Proved for every image with area+width <= 2^32; above it the code computes a wrapped offset (C12_huge_image proves undefined behaviour for one). A single blank row trips an assert."
  },
  {
   "property": "C120",
   "status": "proved",
   "theorems": [
    "Ppocr.Props.C120_exact",
    "Ppocr.Props.C120_boxes",
    "Ppocr.Props.C120_letters",
    "Ppocr.Props.C120_last_column",
    "Ppocr.Props.C120_one_row",
    "Ppocr.Props.C120_unread"
   ],
   "note": "C120_unread shows a line read letter by letter whose double is not: most of the other columns change (C119)."
  },
  {
   "property": "C121",
   "status": "proved",
   "theorems": [
    "Ppocr.Props.C121_ends",
    "Ppocr.Props.C121_ends6",
    "Ppocr.Props.C121_ends8",
    "Ppocr.Props.C121_write_glyphs",
    "Ppocr.Props.C121_write_glyphs_main",
    "Ppocr.Props.C121_show_glyphs_main",
    "Ppocr.Props.C121_box_main",
    "Ppocr.Props.C121_write_datas",
    "Ppocr.Props.C51_program",
    "Ppocr.Props.C121_make_trie",
    "Ppocr.Props.C121_search",
    "Ppocr.Props.C121_text",
    "Ppocr.Props.C121_dictionary",
    "Ppocr.Props.C121_image",
    "Ppocr.Props.C121_glyphs"
   ],
   "note": "Not covered: pictures of 2^31 pixels or more (2^32 for the other programs than ocr2_extract_text), and a file of glyphs of 4 GiB or more (indexes of words wrap modulo 2^32). Replacing words does not always end (C45)."
  },
  {
   "property": "C122",
   "status": "proved",
   "theorems": [
    "Ppocr.Props.C122_canonical",
    "Ppocr.Props.C122_lines",
    "Ppocr.Props.C122_more"
   ],
   "note": "The condition on blank lines is needed: with one the program has undefined behaviour (C58)."
  },
  {
   "property": "C123",
   "status": "proved",
   "theorems": [
    "Ppocr.Props.C123_read",
    "Ppocr.Props.C123_alike",
    "Ppocr.Props.C123_noise",
    "Ppocr.Props.C123_grey",
    "Ppocr.Props.C123_grey_off",
    "Ppocr.Props.C123_margin",
    "Ppocr.Props.C123_programs"
   ],
   "note": "C123_grey_off and C123_margin show that the bounds cannot be improved."
  },
  {
   "property": "C124",
   "status": "proved",
   "theorems": [
    "Ppocr.Props.C124_turn",
    "Ppocr.Props.C124_exchange",
    "Ppocr.Props.C124_mirror",
    "Ppocr.Props.C124_sides",
    "Ppocr.Props.C124_turn_exact",
    "Ppocr.Props.C124_mirror_exact",
    "Ppocr.Props.C124_zone_turn",
    "Ppocr.Props.C124_zone_mirror"
   ],
   "note": ""
  },
  {
   "property": "C125",
   "status": "proved",
   "theorems": [
    "Ppocr.Props.C125_parts",
    "Ppocr.Props.C125_any",
    "Ppocr.Props.C125_files",
    "Ppocr.Props.C125_script",
    "Ppocr.Props.C125_unordered"
   ],
   "note": "C125_unordered shows that the condition on the order of the views is needed."
  },
  {
   "property": "C126",
   "status": "proved",
   "theorems": [
    "Ppocr.Props.C126_write_glyphs",
    "Ppocr.Props.C126_learning",
    "Ppocr.Props.C126_show_glyphs",
    "Ppocr.Props.C126_box",
    "Ppocr.Props.C126_box_option"
   ],
   "note": "An uncaught exception, an abort and undefined behaviour are outcomes of the first run that the long run has too; what stays in the buffer of std::cout then is not modelled."
  },
  {
   "property": "C127",
   "status": "partial",
   "theorems": [
    "Ppocr.Props.C127_place_partial",
    "Ppocr.Props.C127_size",
    "Ppocr.Props.C127_letters",
    "Ppocr.Props.C127_false"
   ],
   "note": "False of the code: only the sizes are compared, so two letters of the same size have equal boxes (C127_false). Proved: the claim for boxes at the same place, that nothing but the size counts, that the boxes of the letters are different and never equal to an empty one."
  },
  {
   "property": "C13",
   "status": "partial",
   "theorems": [
    "Ppocr.Props.C13_segmentation_partial",
    "Ppocr.Props.C13_single_row"
   ],
   "note": "Proved for every image of at least two rows and for single-row images ending in a letter; the other single-row images abort, proved for all of them."
  },
  {
   "property": "C14",
   "status": "partial",
   "theorems": [
    "Ppocr.Props.C14_coverage_partial",
    "Ppocr.Props.C14_last_column",
    "Ppocr.Props.C14_lost_letter"
   ],
   "note": "False of the code in the last column (proved for every image); proved for every other letter pixel."
  },
  {
   "property": "C15",
   "status": "proved",
   "theorems": [
    "Ppocr.Props.C15_density",
    "Ppocr.Props.C15_proportionality",
    "Ppocr.Props.C15_dzdensity",
    "Ppocr.Props.C15_direction200",
    "Ppocr.Props.C15_hdirection2",
    "Ppocr.Props.C15_dvdirection2",
    "Ppocr.Props.C15_dv2_single_row",
    "Ppocr.Props.C15_gravity200",
    "Ppocr.Props.C15_hgravity2",
    "Ppocr.Props.C15_dvgravity2",
    "Ppocr.Props.C15_division_by_zero"
   ],
   "note": "For every non-empty image under explicit size bounds; C15_division_by_zero shows that a bound is needed."
  },
  {
   "property": "C16",
   "status": "proved",
   "theorems": [
    "Ppocr.Props.C16_horizontal_direction",
    "Ppocr.Props.C16_diagonal_direction",
    "Ppocr.Props.C16_horizontal_gravity",
    "Ppocr.Props.C16_diagonal_gravity",
    "Ppocr.Props.C16_middle_row"
   ],
   "note": ""
  },
  {
   "property": "C17",
   "status": "proved",
   "theorems": [
    "Ppocr.Props.C17_mirror"
   ],
   "note": ""
  },
  {
   "property": "C18",
   "status": "proved",
   "theorems": [
    "Ppocr.Props.C18_value",
    "Ppocr.Props.C18_small",
    "Ppocr.Props.C18_half_turn",
    "Ppocr.Props.C18_overflow"
   ],
   "note": "For images whose area times 100 fits in int; C18_overflow shows undefined behaviour above."
  },
  {
   "property": "C19",
   "status": "proved",
   "theorems": [
    "Ppocr.Props.C19_hbar",
    "Ppocr.Props.C19_no_columns"
   ],
   "note": ""
  },
  {
   "property": "C20",
   "status": "proved",
   "theorems": [
    "Ppocr.Props.C20_entries",
    "Ppocr.Props.C20_empty"
   ],
   "note": "For sizes below 2^31; the empty image is read out of bounds."
  },
  {
   "property": "C21",
   "status": "proved",
   "theorems": [
    "Ppocr.Props.C21_zones",
    "Ppocr.Props.C21_huge_image"
   ],
   "note": "For every image of fewer than 2^31 - 1 pixels; above, the size of the work buffer wraps (C21_huge_image)."
  },
  {
   "property": "C22",
   "status": "proved",
   "theorems": [
    "Ppocr.Props.C22_zone"
   ],
   "note": "For every non-empty image of fewer than 2^30 pixels (the code multiplies the number of zones by four in 32 bits)."
  },
  {
   "property": "C23",
   "status": "proved",
   "theorems": [
    "Ppocr.Props.C23_proportionality_zone"
   ],
   "note": "For every non-empty image with 100*area + 100 < 2^32."
  },
  {
   "property": "C24",
   "status": "partial",
   "theorems": [
    "Ppocr.Props.C24_interval",
    "Ppocr.Props.C24_equal",
    "Ppocr.Props.C24_array",
    "Ppocr.Props.C24_pz_partial",
    "Ppocr.Props.C24_pz_small_images",
    "Ppocr.Props.C24_pz_division_by_zero",
    "Ppocr.Props.C24_pz_asymmetric",
    "Ppocr.Props.C24_pz_exact"
   ],
   "note": "Proved for the interval, equal and array relationships. False for proportionality_zone: division by zero on two zero proportions and asymmetry, both proved with images. C24_pz_exact says for which pictures it divides by zero, and that all others give a percentage."
  },
  {
   "property": "C25",
   "status": "proved",
   "theorems": [
    "Ppocr.Props.C25_keeps_near",
    "Ppocr.Props.C25_out_of_table",
    "Ppocr.Props.C25_other_relationships_removed"
   ],
   "note": "For interval features (the only ones given to it) and v + d < 2^32."
  },
  {
   "property": "C26",
   "status": "proved",
   "theorems": [
    "Ppocr.Props.C26_contexts",
    "Ppocr.Props.C26_fresh"
   ],
   "note": ""
  },
  {
   "property": "C27",
   "status": "proved",
   "theorems": [
    "Ppocr.Props.C27_tables",
    "Ppocr.Props.C27_registry"
   ],
   "note": "The registry theorem states the sizes for which every feature is defined."
  },
  {
   "property": "C28",
   "status": "proved",
   "theorems": [
    "Ppocr.Props.C28_get_range"
   ],
   "note": "For x + d < 2^32 and every implementation of std::sort."
  },
  {
   "property": "C29",
   "status": "proved",
   "theorems": [
    "Ppocr.Props.C29_buffers"
   ],
   "note": "For tables and buffers of n entries; every write past a buffer is undefined behaviour in the model."
  },
  {
   "property": "C30",
   "status": "proved",
   "theorems": [
    "Ppocr.Props.C30_simple_universe"
   ],
   "note": ""
  },
  {
   "property": "C31",
   "status": "proved",
   "theorems": [
    "Ppocr.Props.C31_result",
    "Ppocr.Props.C31_program"
   ],
   "note": "For every total preorder of probabilities in which halving does not increase."
  },
  {
   "property": "C32",
   "status": "proved",
   "theorems": [
    "Ppocr.Props.C32_by_word"
   ],
   "note": ""
  },
  {
   "property": "C33",
   "status": "proved",
   "theorems": [
    "Ppocr.Props.C33_by_words",
    "Ppocr.Props.C33_empty_glyph"
   ],
   "note": "With the order of each entry: the last glyph of the word first, then the others from the first on. A glyph without views is undefined behaviour, proved."
  },
  {
   "property": "C34",
   "status": "partial",
   "theorems": [
    "Ppocr.Props.C34_ids_partial",
    "Ppocr.Props.C34_wrong_ids",
    "Ppocr.Props.C34_ids_by_rank"
   ],
   "note": "False of the code for unsorted glyph tables, proved with a table of three glyphs; proved for tables in the order of their words."
  },
  {
   "property": "C35",
   "status": "proved",
   "theorems": [
    "Ppocr.Props.C35_font"
   ],
   "note": ""
  },
  {
   "property": "C36",
   "status": "partial",
   "theorems": [
    "Ppocr.Props.C36_low",
    "Ppocr.Props.C36_exact",
    "Ppocr.Props.C36_sure",
    "Ppocr.Props.C36_memory_partial",
    "Ppocr.Props.C36_wrong_memory",
    "Ppocr.Props.C36_out_of_bounds",
    "Ppocr.Props.C36_first_lowest",
    "Ppocr.Props.C36_one_point",
    "Ppocr.Props.C36_one_letter"
   ],
   "note": "False of the code: the maxima skip the first box. Undefined behaviour proved whenever the first box is too low, with two witnesses; a 16 GiB buffer for one letter. Exactly the lines on which it fails: the first box has no cell for its bottom (C36_low), or counts for the meanline and has none for its top (C36_exact, C36_sure); on all others it does not fail. Buffer bounded by the spread when another box is at least as low (C36_memory_partial)."
  },
  {
   "property": "C37",
   "status": "partial",
   "theorems": [
    "Ppocr.Props.C37_line_partial",
    "Ppocr.Props.C37_wrong_line",
    "Ppocr.Props.C37_second_word_kept",
    "Ppocr.Props.C37_line_when"
   ],
   "note": "False of the code: the second word is kept unexamined when the first one is kept. The exact behaviour is proved for every list."
  },
  {
   "property": "C38",
   "status": "partial",
   "theorems": [
    "Ppocr.Props.C38_position_partial",
    "Ppocr.Props.C38_own_copy",
    "Ppocr.Props.C38_position_all",
    "Ppocr.Props.C38_own_copy_all",
    "Ppocr.Props.C38_wrong_position",
    "Ppocr.Props.C38_shared_list"
   ],
   "note": "False of the code for repeated pictures (shared candidate lists), proved with a line; proved for lines without repeated pictures, on all lines on which the filter does not fail for its first box (C38_position_all, C38_own_copy_all)."
  },
  {
   "property": "C39",
   "status": "proved",
   "theorems": [
    "Ppocr.Props.C39_unicode",
    "Ppocr.Props.C39_bytes",
    "Ppocr.Props.C39_codes"
   ],
   "note": "Both iterators on every terminated valid string, with any memory behind the terminator."
  },
  {
   "property": "C40",
   "status": "proved",
   "theorems": [
    "Ppocr.Props.C40_accepts",
    "Ppocr.Props.C40_order",
    "Ppocr.Props.C40_empty_word"
   ],
   "note": "Acceptance observed through the disambiguouser with one candidate per letter. Total length of the words below 2^32. The empty word is proved to be undefined behaviour."
  },
  {
   "property": "C41",
   "status": "proved",
   "theorems": [
    "Ppocr.Props.C41_structure",
    "Ppocr.Props.C41_descend",
    "Ppocr.Props.C41_words"
   ],
   "note": "Fewer than 2^32 nodes; lookups need sorted siblings, which is proved of tries built from increasing words."
  },
  {
   "property": "C42",
   "status": "proved",
   "theorems": [
    "Ppocr.Props.C42_round_trip",
    "Ppocr.Props.C42_total",
    "Ppocr.Props.C42_cut"
   ],
   "note": "Streams as in Model/Stream. The numbers of the nodes are unsigned (below 2^32). Also proved: every input ends normally or by the exception, skipws is restored, and a non-number silently cuts the dictionary."
  },
  {
   "property": "C43",
   "status": "partial",
   "theorems": [
    "Ppocr.Props.C43_search_partial",
    "Ppocr.Props.C43_wrong_last",
    "Ppocr.Props.C43_last_candidate",
    "Ppocr.Props.C43_search_when",
    "Ppocr.Props.C43_empty"
   ],
   "note": "False of the code: only the first character of a candidate of the last position is compared. Exact behaviour proved for every table; the full claim proved when the candidates of the last position are single characters."
  },
  {
   "property": "C44",
   "status": "partial",
   "theorems": [
    "Ppocr.Props.C44_exact",
    "Ppocr.Props.C44_text_partial",
    "Ppocr.Props.C44_wrong_first",
    "Ppocr.Props.C44_lost_space",
    "Ppocr.Props.C44_words"
   ],
   "note": "False of the code: unrecognised letters at the start of the line are neither shown nor counted, and the space behind a first word of punctuation only is lost. Proved: the exact text and count for every line, and the full claim when the line starts with a space or with a recognised letter that is no punctuation."
  },
  {
   "property": "C45",
   "status": "partial",
   "theorems": [
    "Ppocr.Props.C45_returns",
    "Ppocr.Props.C45_exact",
    "Ppocr.Props.C45_words_partial",
    "Ppocr.Props.C45_one_byte",
    "Ppocr.Props.C45_textbook",
    "Ppocr.Props.C45_endless",
    "Ppocr.Props.C45_remains"
   ],
   "note": "False of the code: a pattern in its own replacement (or an empty one) is replaced for ever, and aabb without ab leaves ab. Proved for all texts: exactly when one replacement returns, what is returned, that the last pattern is gone when no end of it and its replacement begin alike (in particular for one byte), and when the result is the textbook one."
  },
  {
   "property": "C46",
   "status": "proved",
   "theorems": [
    "Ppocr.Props.C46_round_trip",
    "Ppocr.Props.C46_total"
   ],
   "note": "Glyphs whose words and fonts are tokens, whose numbers are unsigned and whose pixels fill the image. Reading is total on any input."
  },
  {
   "property": "C47",
   "status": "partial",
   "theorems": [
    "Ppocr.Props.C47_agree_partial",
    "Ppocr.Props.C47_wrong_views",
    "Ppocr.Props.C47_wrong_word"
   ],
   "note": "False of the code: after a glyph without views the next image is read as views, and a greatest word of 4, 8, ... bytes is written past the buffer (both proved). Proved for glyphs with a view, no newline pixel, and a greatest word of another size."
  },
  {
   "property": "C48",
   "status": "partial",
   "theorems": [
    "Ppocr.Props.C48_buffer_partial",
    "Ppocr.Props.C48_overflow",
    "Ppocr.Props.C48_wrong",
    "Ppocr.Props.C48_not_terminated"
   ],
   "note": "False of the code: the terminator is written behind the buffer exactly when the size of the greatest word is a multiple of 4 (proved as an equivalence), and words of such sizes are not terminated. Proved for the others."
  },
  {
   "property": "C49",
   "status": "partial",
   "theorems": [
    "Ppocr.Props.C49_search_partial",
    "Ppocr.Props.C49_stored",
    "Ppocr.Props.C49_exact_when",
    "Ppocr.Props.C49_wrong_prefix",
    "Ppocr.Props.C49_overrun",
    "Ppocr.Props.C49_exact_partial"
   ],
   "note": "False of the code: a prefix of a stored word is found, and a longer string is compared with memory behind the buffer. Proved: exactly when the memory is left and what is found otherwise, unless a stored word of 4, 8, ... bytes is a proper prefix (C49_exact_partial); exact result, stored words found at their own place, the full claim when no stored word extends the string and it fits."
  },
  {
   "property": "C50",
   "status": "proved",
   "theorems": [
    "Ppocr.Props.C50_get",
    "Ppocr.Props.C50_words"
   ],
   "note": "Any glyphs, lines and sorting algorithm, once the table is built; it is built when the words can be searched (see C49)."
  },
  {
   "property": "C51",
   "status": "proved",
   "theorems": [
    "Ppocr.Props.C51_merge",
    "Ppocr.Props.C51_unique",
    "Ppocr.Props.C51_program",
    "Ppocr.Props.C51_files"
   ],
   "note": "Any glyphs whose buffer has the computed size, any sorting algorithm; the whole program on any files. Views are compared as sets: without two glyphs of one image they are neither sorted nor made unique."
  },
  {
   "property": "C52",
   "status": "proved",
   "theorems": [
    "Ppocr.Props.C52_round_trip",
    "Ppocr.Props.C52_loaded",
    "Ppocr.Props.C52_cut_file",
    "Ppocr.Props.C52_count_too_great"
   ],
   "note": "Tables with the columns of the program, of one size. Also proved: a truncated file is accepted."
  },
  {
   "property": "C53",
   "status": "partial",
   "theorems": [
    "Ppocr.Props.C53_lt_partial",
    "Ppocr.Props.C53_eq",
    "Ppocr.Props.C53_wrong_lt",
    "Ppocr.Props.C53_not_lexicographic",
    "Ppocr.Props.C53_not_strict_weak"
   ],
   "note": "eq proved; lt is false of the code (neither lexicographic nor a strict weak ordering), proved with three rows; it is proved a strict partial order."
  },
  {
   "property": "C54",
   "status": "proved",
   "theorems": [
    "Ppocr.Props.C54_reindex",
    "Ppocr.Props.C54_columns",
    "Ppocr.Props.C54_not_permutation"
   ],
   "note": "Every vector and permutation, and the glyphs with all columns of features. Also proved: what happens for indexes that are no permutation."
  },
  {
   "property": "C55",
   "status": "partial",
   "theorems": [
    "Ppocr.Props.C55_calls_partial",
    "Ppocr.Props.C55_img90",
    "Ppocr.Props.C55_section",
    "Ppocr.Props.C55_dangling",
    "Ppocr.Props.C55_overflow"
   ],
   "note": "False of the code: a larger letter deletes the buffer that img90 points to, until img90 is called again. Proved for any sequence of calls: img is inside the buffer and shows the last picture, all is deleted once, and after each img90 both images are inside, apart, and img90 is the rotation. Letters of 2^31 pixels or more are excluded (C55_overflow)."
  },
  {
   "property": "C56",
   "status": "proved",
   "theorems": [
    "Ppocr.Props.C56_same_list"
   ],
   "note": "The loop of the program over every image cut in letters that can be recognised (SetupOk, as in C29 and C31): two letters refer to the same list exactly when they show the same picture, and the list is what compute_image finds for that picture. Images of one row with a blank last column are excluded (C13)."
  },
  {
   "property": "C57",
   "status": "proved",
   "theorems": [
    "Ppocr.Props.C57_reader",
    "Ppocr.Props.C57_unique"
   ],
   "note": "Every text; the grammar of entries is given apart from the stream model."
  },
  {
   "property": "C58",
   "status": "partial",
   "theorems": [
    "Ppocr.Props.C58_compile_partial",
    "Ppocr.Props.C58_wrong_files",
    "Ppocr.Props.C58_blank_line"
   ],
   "note": "False of the code: only the first file that opens is read, and an empty line is undefined behaviour (both proved). Proved for one file of non-empty lines."
  },
  {
   "property": "C59",
   "status": "proved",
   "theorems": [
    "Ppocr.Props.C59_reader",
    "Ppocr.Props.C59_unique",
    "Ppocr.Props.C59_round_trip",
    "Ppocr.Props.C59_last_line"
   ],
   "note": "Every text, by an unambiguous grammar given apart from the stream model. Also proved: what happens to a last line without newline and to blanks behind a lone pattern."
  },
  {
   "property": "C60",
   "status": "partial",
   "theorems": [
    "Ppocr.Props.C60_exact",
    "Ppocr.Props.C60_total_partial",
    "Ppocr.Props.C60_computed_partial",
    "Ppocr.Props.C60_refused",
    "Ppocr.Props.C60_no_view",
    "Ppocr.Props.C60_false",
    "Ppocr.Props.C60_wide_letter"
   ],
   "note": "Exact, for every sort and glyph table, for pictures within the sizes of C27 (440 by 440, for example) and glyphs with at least one view (C60_exact): a letter is recognised unless it is blocked, and then proportionality_zone divides by zero (C60_false gives one). Blocked: no glyph is alike to the letter, and for some glyph close to it the first other glyph of its word with the zones of the letter clashes with it. No picture with width + height at most 50 clashes. A glyph without views is undefined behaviour (C60_no_view)."
  },
  {
   "property": "C61",
   "status": "partial",
   "theorems": [
    "Ppocr.Props.C61_alike_partial",
    "Ppocr.Props.C61_only_partial",
    "Ppocr.Props.C61_words_partial",
    "Ppocr.Props.C61_ordered_partial",
    "Ppocr.Props.C61_false",
    "Ppocr.Props.C61_misread"
   ],
   "note": "False in general (C61_false): view ids that are wrongly equal (C34) hide a glyph behind another that no simple strategy tells from it. Proved: the candidates are never empty and all come from glyphs alike for the simple strategies; exactly its views for a glyph alike to no other; exactly its words when the alike glyphs share them; its words are among the candidates when the glyph table is in the order of the words. Pictures within the sizes of C27."
  },
  {
   "property": "C62",
   "status": "partial",
   "theorems": [
    "Ppocr.Props.C62_exact",
    "Ppocr.Props.C62_answer_partial",
    "Ppocr.Props.C62_undefined",
    "Ppocr.Props.C62_low",
    "Ppocr.Props.C62_false",
    "Ppocr.Props.C62_low_first"
   ],
   "note": "False for a line whose first letter is lower than the others (C36). Exact condition (C62_exact): a line is read if and only if every letter can be compared with the learnt pictures (C60) and the first letter has a cell for its bottom in the buffer of the line filter, and one for its top if it counts for the meanline; all the other lines are undefined. On the lines that are read: answer, counts, candidate lists and text. Memory exhaustion is not modelled (16 GiB for one letter, C36). Images of one row with a blank last column excluded (C13)."
  },
  {
   "property": "C63",
   "status": "partial",
   "theorems": [
    "Ppocr.Props.C63_held",
    "Ppocr.Props.C63_one_letter",
    "Ppocr.Props.C63_cut",
    "Ppocr.Props.C63_exact_partial",
    "Ppocr.Props.C63_read_partial",
    "Ppocr.Props.C63_false",
    "Ppocr.Props.C63_space_lost"
   ],
   "note": "False when the first word is only punctuation: its space is lost. C63_exact_partial gives what is printed on every such line; C63_held says that it is printed exactly when the first letter has a cell for its bottom (C36), and the run is undefined otherwise; C63_read_partial the full claim when the first word is not only punctuation. The dictionary must not cut a text of several characters (C43, C63_cut)."
  },
  {
   "property": "C64",
   "status": "proved",
   "theorems": [
    "Ppocr.Props.C64_removes_only"
   ],
   "note": "Every word table, line, list of references and candidate lists."
  },
  {
   "property": "C65",
   "status": "proved",
   "theorems": [
    "Ppocr.Props.C65_line",
    "Ppocr.Props.C65_every_line",
    "Ppocr.Props.C65_unreadable",
    "Ppocr.Props.C65_lines",
    "Ppocr.Props.C65_read_back",
    "Ppocr.Props.C65_main"
   ],
   "note": "Every image, text, font and list of lines, except one-row images with a blank last column, where the segmentation itself is undefined (C13); what std::cout still holds when an exception ends the program is not modelled. Reading back needs a font name without blanks."
  },
  {
   "property": "C66",
   "status": "proved",
   "theorems": [
    "Ppocr.Props.C66_features",
    "Ppocr.Props.C66_rest",
    "Ppocr.Props.C66_cut",
    "Ppocr.Props.C66_no_pixels",
    "Ppocr.Props.C66_codes"
   ],
   "note": "Every list of glyphs with pictures within the sizes of C27. On a picture without pixels an assert fails (C66_no_pixels). What stands behind the glyphs is printed with code 5 (C66_rest); a file cut behind a picture is accepted without its last glyph (C66_cut)."
  },
  {
   "property": "C67",
   "status": "partial",
   "theorems": [
    "Ppocr.Props.C67_exact_partial",
    "Ppocr.Props.C67_read_partial",
    "Ppocr.Props.C67_own_line",
    "Ppocr.Props.C67_false",
    "Ppocr.Props.C67_space_lost",
    "Ppocr.Props.C67_four_bytes"
   ],
   "note": "False for the reasons of C63 (C67_space_lost) and for words of 4, 8, ... bytes (C67_four_bytes, C48). Proved for other words: exactly what is printed (C67_exact_partial), the full claim when the first word is not only punctuation (C67_read_partial), and that a line learnt from is read back (C67_own_line). Letters within the sizes of C27; first letter of the line with a cell for its bottom (C36, otherwise undefined); the dictionary must not cut a text of several characters (C63_cut)."
  },
  {
   "property": "C68",
   "status": "partial",
   "theorems": [
    "Ppocr.Props.C68_refused_partial",
    "Ppocr.Props.C68_features",
    "Ppocr.Props.C68_dictionary",
    "Ppocr.Props.C68_glyphs",
    "Ppocr.Props.C68_positions",
    "Ppocr.Props.C68_glyph_line",
    "Ppocr.Props.C68_accepted",
    "Ppocr.Props.C68_false"
   ],
   "note": "False: one line behind the glyphs is never looked at, whatever it holds (C68_glyph_line), nor is one word behind the positions (C68_accepted, C68_false). Proved for the features (where only blanks are accepted) and the dictionary; for the glyphs when a second line, and for the positions when a second word, is not a number (C68_refused_partial)."
  },
  {
   "property": "C69",
   "status": "partial",
   "theorems": [
    "Ppocr.Props.C69_count_partial",
    "Ppocr.Props.C69_features_unnoticed",
    "Ppocr.Props.C69_dictionary_unnoticed",
    "Ppocr.Props.C69_glyphs_unnoticed",
    "Ppocr.Props.C69_positions_unnoticed",
    "Ppocr.Props.C69_noticed_only_by_count",
    "Ppocr.Props.C69_accepted",
    "Ppocr.Props.C69_false"
   ],
   "note": "False: every beginning of an accepted file is accepted (C69_*_unnoticed), so that a cut leads to an exception only if the numbers of glyphs and features differ (C69_noticed_only_by_count); else the program prints another text or reads out of bounds (C69_accepted). Proved for glyph files cut before the number of views of a glyph (C69_count_partial)."
  },
  {
   "property": "C70",
   "status": "proved",
   "theorems": [
    "Ppocr.Props.C70_exceptions"
   ],
   "note": "Every set of files. Exceptions for lack of memory are not modelled."
  },
  {
   "property": "C71",
   "status": "proved",
   "theorems": [
    "Ppocr.Props.C71_order",
    "Ppocr.Props.C71_again",
    "Ppocr.Props.C71_views",
    "Ppocr.Props.C71_program",
    "Ppocr.Props.C71_files",
    "Ppocr.Props.C71_file_again"
   ],
   "note": "Every sorting algorithm with the guarantees of std::sort. That a file is written again byte for byte is proved for files of the tools (C71_file_again); order of files for accepted ones, because the first file that is not accepted decides where reading stops."
  },
  {
   "property": "C72",
   "status": "partial",
   "theorems": [
    "Ppocr.Props.C72_letter_partial",
    "Ppocr.Props.C72_words_partial",
    "Ppocr.Props.C72_line_partial",
    "Ppocr.Props.C72_program_partial",
    "Ppocr.Props.C72_positions",
    "Ppocr.Props.C72_positions_twice",
    "Ppocr.Props.C72_slash_files",
    "Ppocr.Props.C72_slash",
    "Ppocr.Props.C72_false"
   ],
   "note": "False, with glyphs as the tools leave them: two glyphs with the same features, and std::sort decides which one is printed (C72_slash); the same for two positions of one word (C72_positions_twice). Proved: which glyphs share a view id never depends on the sort; with a table in word order the candidates of a letter are the same words in some order (C72_words_partial); lines, and whole runs, on which glyphs that a letter matches equally well have the same views, whether they are read or undefined (C72_line_partial, C72_program_partial)."
  },
  {
   "property": "C73",
   "status": "proved",
   "theorems": [
    "Ppocr.Props.C73_picture",
    "Ppocr.Props.C73_line",
    "Ppocr.Props.C73_every_line",
    "Ppocr.Props.C73_lines",
    "Ppocr.Props.C73_read_back",
    "Ppocr.Props.C73_same",
    "Ppocr.Props.C73_main"
   ],
   "note": "Images with w*h+w at most 2^32 (C13); that pictures exist for an image is C73_every_line."
  },
  {
   "property": "C74",
   "status": "partial",
   "theorems": [
    "Ppocr.Props.C74_exact",
    "Ppocr.Props.C74_triples",
    "Ppocr.Props.C74_refused",
    "Ppocr.Props.C74_numeral_partial",
    "Ppocr.Props.C74_no_option",
    "Ppocr.Props.C74_only_colour",
    "Ppocr.Props.C74_above",
    "Ppocr.Props.C74_wraps",
    "Ppocr.Props.C74_negative",
    "Ppocr.Props.C74_false"
   ],
   "note": "False: 4294967296 is used as 0, and -1 and +7 behind a blank are accepted (C74_wraps, C74_negative). Proved: what is accepted and with which value (C74_exact, C74_refused); decimal numbers below 2^32 (C74_numeral_partial)."
  },
  {
   "property": "C75",
   "status": "proved",
   "theorems": [
    "Ppocr.Props.C75_usage",
    "Ppocr.Props.C75_run",
    "Ppocr.Props.C75_stops",
    "Ppocr.Props.C75_outcome",
    "Ppocr.Props.C75_each_once",
    "Ppocr.Props.C75_pair"
   ],
   "note": "Every line for which the program answers (C62_exact says which). Flushing is not modelled."
  },
  {
   "property": "C76",
   "status": "partial",
   "theorems": [
    "Ppocr.Props.C76_counted_partial",
    "Ppocr.Props.C76_rate_exact",
    "Ppocr.Props.C76_rate_shown",
    "Ppocr.Props.C76_rate_partial",
    "Ppocr.Props.C76_in_front",
    "Ppocr.Props.C76_two_of_three",
    "Ppocr.Props.C76_not_counted",
    "Ppocr.Props.C76_one_of_two",
    "Ppocr.Props.C76_false",
    "Ppocr.Props.C76_rate_false"
   ],
   "note": "False: unrecognised letters at the start are not counted nor printed (C76_in_front), and the rate is 100 times the count (C76_two_of_three: 200). Proved: lines whose first letter is recognised as a word that is no punctuation mark (C76_counted_partial); the rate exactly, and when it is a percentage (C76_rate_exact, C76_rate_partial)."
  },
  {
   "property": "C77",
   "status": "partial",
   "theorems": [
    "Ppocr.Props.C77_exact_partial",
    "Ppocr.Props.C77_same_partial",
    "Ppocr.Props.C77_order",
    "Ppocr.Props.C77_two_words",
    "Ppocr.Props.C77_false"
   ],
   "note": "False: a picture shown with two words may be read as the one before and as the other after (C77_two_words). Proved: lines whose letters stand for one word, under the conditions of C67 (C77_exact_partial, C77_same_partial); order of learning and spread over the files, for every line that is read (C77_order)."
  },
  {
   "property": "C78",
   "status": "partial",
   "theorems": [
    "Ppocr.Props.C78_margins_partial",
    "Ppocr.Props.C78_rows_partial",
    "Ppocr.Props.C78_left",
    "Ppocr.Props.C78_last_column",
    "Ppocr.Props.C78_point",
    "Ppocr.Props.C78_one_row",
    "Ppocr.Props.C78_false"
   ],
   "note": "False: a left margin that pushes the first letter behind column 4 changes the spaces (C78_left), a right margin makes the last column visible (C78_last_column), one point alone is undefined behaviour in the second row only (C78_point), a single row with a blank end fails with an assertion unless a row is added (C78_one_row). Proved for all files whatever they hold: all lines outside these four cases (C78_margins_partial), and rows above and below any line of two letters or more (C78_rows_partial)."
  },
  {
   "property": "C79",
   "status": "partial",
   "theorems": [
    "Ppocr.Props.C79_line_partial",
    "Ppocr.Props.C79_file_partial",
    "Ppocr.Props.C79_read_partial",
    "Ppocr.Props.C79_last_column",
    "Ppocr.Props.C79_one_row",
    "Ppocr.Props.C79_false"
   ],
   "note": "False when the last column is not blank and columns are added behind it (C79_last_column), and whenever rows are added to a single row with a blank end (C79_one_row). Proved otherwise, for one line, for a run over many lines and for what is read afterwards."
  },
  {
   "property": "C80",
   "status": "partial",
   "theorems": [
    "Ppocr.Props.C80_image",
    "Ppocr.Props.C80_every_image",
    "Ppocr.Props.C80_redraw",
    "Ppocr.Props.C80_read_back",
    "Ppocr.Props.C80_same_output",
    "Ppocr.Props.C80_plain",
    "Ppocr.Props.C80_option",
    "Ppocr.Props.C80_refused_value",
    "Ppocr.Props.C80_refused",
    "Ppocr.Props.C80_ends_partial",
    "Ppocr.Props.C80_no_value",
    "Ppocr.Props.C80_false"
   ],
   "note": "Proved for all images what is printed and that it determines the letter pixels in front of the last column. The command line: false for box -l alone, which is undefined behaviour (C80_no_value); proved for all other arguments (C80_ends_partial)."
  },
  {
   "property": "C81",
   "status": "proved",
   "theorems": [
    "Ppocr.Props.C81_drawn",
    "Ppocr.Props.C81_exact",
    "Ppocr.Props.C81_empty",
    "Ppocr.Props.C81_wrapped",
    "Ppocr.Props.C81_printed"
   ],
   "note": "every C string and every bounds; the asserts are taken as compiled in"
  },
  {
   "property": "C82",
   "status": "proved",
   "theorems": [
    "Ppocr.Props.C82_read",
    "Ppocr.Props.C82_round_trip",
    "Ppocr.Props.C82_inj"
   ],
   "note": "the value is stored only if both numbers are read"
  },
  {
   "property": "C83",
   "status": "partial",
   "theorems": [
    "Ppocr.Props.C83_exact_partial",
    "Ppocr.Props.C83_distinct",
    "Ppocr.Props.C83_program",
    "Ppocr.Props.C83_wrong"
   ],
   "note": "False: find_if looks for the next equal row and takes everything before it for duplicates (C83_wrong). Proved for all tables what happens instead (C83_exact_partial), that two or at least four different pictures are undefined behaviour (C83_distinct), and so for the files the learning tools write (C83_program)."
  },
  {
   "property": "C84",
   "status": "partial",
   "theorems": [
    "Ppocr.Props.C84_features_partial",
    "Ppocr.Props.C84_wrong"
   ],
   "note": "False: the double exchange (C84_wrong: 100 instead of 50). Proved for all pictures and strategies which stored value it is instead, and that it is the right one for pictures that look the same turned (C84_features_partial)."
  },
  {
   "property": "C85",
   "status": "proved",
   "theorems": [
    "Ppocr.Props.C85_letter",
    "Ppocr.Props.C85_read",
    "Ppocr.Props.C85_sorts"
   ],
   "note": "C85_letter: the tables are built and every letter is read as specified or jams; C85_read: three conditions under which it does not jam; C85_sorts: the candidates are the same for every sort."
  },
  {
   "property": "C86",
   "status": "partial",
   "theorems": [
    "Ppocr.Props.C86_turned_partial",
    "Ppocr.Props.C86_lost",
    "Ppocr.Props.C86_wrong"
   ],
   "note": "False (C86_wrong). Proved for pictures whose features have the same tens turned (C86_turned_partial), and for the others that they are not found through themselves (C86_lost)."
  },
  {
   "property": "C87",
   "status": "partial",
   "theorems": [
    "Ppocr.Props.C87_text_partial",
    "Ppocr.Props.C87_exact",
    "Ppocr.Props.C87_wrong"
   ],
   "note": "False: leading separators are lost (C87_wrong). C87_exact gives the text of every line, C87_text_partial the full statement for lines that start with a letter of a word."
  },
  {
   "property": "C88",
   "status": "proved",
   "theorems": [
    "Ppocr.Props.C88_line"
   ],
   "note": "C88_line: segmentation, both results and the candidates along the line, or the division by zero of a letter."
  },
  {
   "property": "C89",
   "status": "partial",
   "theorems": [
    "Ppocr.Props.C89_same_partial",
    "Ppocr.Props.C89_wrong"
   ],
   "note": "False (C89_wrong). C89_same_partial: the recognised letters agree, and what exactly the others get."
  },
  {
   "property": "C90",
   "status": "proved",
   "theorems": [
    "Ppocr.Props.C90_program"
   ],
   "note": "C90_program: from the bytes of the files to the three results, or the division by zero."
  },
  {
   "property": "C91",
   "status": "proved",
   "theorems": [
    "Ppocr.Props.C91_letter",
    "Ppocr.Props.C91_read",
    "Ppocr.Props.C91_sorts"
   ],
   "note": "C91_letter: the reading, or the division by zero; C91_read: when it cannot happen; C91_sorts: independence of the sort."
  },
  {
   "property": "C92",
   "status": "partial",
   "theorems": [
    "Ppocr.Props.C92_turned_partial",
    "Ppocr.Props.C92_lost",
    "Ppocr.Props.C92_wrong"
   ],
   "note": "False (C92_wrong). C92_turned_partial: pictures with the same features turned; C92_lost: what happens to the others."
  },
  {
   "property": "C93",
   "status": "partial",
   "theorems": [
    "Ppocr.Props.C93_program_partial",
    "Ppocr.Props.C93_lost",
    "Ppocr.Props.C93_wrong"
   ],
   "note": "False (C93_wrong, in general C93_lost). C93_program_partial: all glyphs with the same features."
  },
  {
   "property": "C94",
   "status": "proved",
   "theorems": [
    "Ppocr.Props.C94_rounding",
    "Ppocr.Props.C94_likeness"
   ],
   "note": "C94_rounding: at most 1, and 1 exactly for a match; C94_likeness: the similarity of a feature. The instances MonoDbl Double and LawfulProb8 Double show that all that is assumed of doubles elsewhere holds of IEEE doubles."
  },
  {
   "property": "C95",
   "status": "partial",
   "theorems": [
    "Ppocr.Props.C95_results",
    "Ppocr.Props.C95_exact_partial",
    "Ppocr.Props.C95_own_line_partial",
    "Ppocr.Props.C95_lost",
    "Ppocr.Props.C95_mark",
    "Ppocr.Props.C95_wrong"
   ],
   "note": "C95_results: what is printed for any line after learning; C95_exact_partial: for letters that match what was shown, with any dictionary; C95_own_line_partial: the claim for lines whose letters match themselves and that start with no separator; C95_wrong refutes the claim for others."
  },
  {
   "property": "C96",
   "status": "partial",
   "theorems": [
    "Ppocr.Props.C96_false",
    "Ppocr.Props.C96_tie",
    "Ppocr.Props.C96_tie_files",
    "Ppocr.Props.C96_error",
    "Ppocr.Props.C96_letter_partial",
    "Ppocr.Props.C96_line_partial",
    "Ppocr.Props.C96_program_partial"
   ],
   "note": "C96_error: the bound, for all letters. C96_tie: the text differs for a letter that two glyphs match equally well, so the claim about texts is false; C96_line_partial and C96_program_partial prove it for lines on whose letters no near tie decides."
  },
  {
   "property": "C97",
   "status": "partial",
   "theorems": [
    "Ppocr.Props.C97_script",
    "Ppocr.Props.C97_order",
    "Ppocr.Props.C97_failed_partial",
    "Ppocr.Props.C97_reads",
    "Ppocr.Props.C97_emptied",
    "Ppocr.Props.C97_false"
   ],
   "note": "C97_script, C97_order: all of the claim about runs on prepared lines; C97_failed_partial: a run in which write_glyphs fails changes no result, for all files; C97_false: a run in which normalize_glyphs fails empties one. C97_reads: ocr2_extract_text reads with these files."
  },
  {
   "property": "C98",
   "status": "proved",
   "theorems": [
    "Ppocr.Props.C98_letters",
    "Ppocr.Props.C98_show",
    "Ppocr.Props.C98_write",
    "Ppocr.Props.C98_read",
    "Ppocr.Props.C98_no_blank"
   ],
   "note": "C98_letters: the boxes; C98_show, C98_write, C98_read: the tools; C98_no_blank: without a blank column before the cut the claim is false (the last column of a picture is never part of a letter, C13)."
  },
  {
   "property": "C99",
   "status": "partial",
   "theorems": [
    "Ppocr.Props.C99_false",
    "Ppocr.Props.C99_lost",
    "Ppocr.Props.C99_second_lost",
    "Ppocr.Props.C99_programs",
    "Ppocr.Props.C99_candidates_partial",
    "Ppocr.Props.C99_first_partial",
    "Ppocr.Props.C99_lessons_partial",
    "Ppocr.Props.C99_far_not_alike"
   ],
   "note": "False of the code: after learning a box as L too, an L with a pixel missing is no longer recognised (C99_lost, with the programs C99_programs). Proved when the added glyphs have new words: the same candidates for tables in the order of words (C99_candidates_partial, also for letters that divide by zero), the same first candidates for any tables (C99_first_partial), the same text for letters that look like one shown before (C99_lessons_partial). Letters whose candidates depend on std::sort (C72) are left out."
  }
 ]
}