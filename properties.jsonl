{"id": "C01", "title": "Section copies exactly the requested rectangle", "statement": "For a rectangle inside an image, Image::section returns an image of the requested size whose pixel (x,y) is the source pixel (x0+x,y0+y); no byte outside the source or destination buffers is touched.", "quantifier": "every image of any size and content, every rectangle inside it", "why_tests_cant": "tests check a few literal images; the claim ranges over all sizes, offsets and contents and includes absence of out-of-bounds access", "anchors": ["src/ppocr/image/image.cpp: section, Image::section", "src/ppocr/image/image.hpp: Image::data"]}
{"id": "C02", "title": "rotate90 is the counter-clockwise quarter turn", "statement": "Image::rotate90 swaps width and height and its pixel (x,y) is source pixel (w-1-y, x); all accesses are in bounds and the loop terminates.", "quantifier": "every image of any size and content", "why_tests_cant": "sizes and contents are unbounded", "anchors": ["src/ppocr/image/image.cpp: rotate90, Image::rotate90"]}
{"id": "C03", "title": "Four quarter turns are the identity", "statement": "Rotating any image four times gives back an equal image, twice gives the half turn, and the multiset of pixels is preserved by each turn.", "quantifier": "every image", "why_tests_cant": "holds for all images, a test sees a handful", "anchors": ["src/ppocr/image/image.cpp: rotate90"]}
{"id": "C04", "title": "clone and operator== are faithful", "statement": "clone() of a non-empty image compares equal to the original; operator== holds exactly when both bounds and every pixel agree.", "quantifier": "every pair of images", "why_tests_cant": "all pairs of images", "anchors": ["src/ppocr/image/image.cpp: Image::clone, operator=="]}
{"id": "C05", "title": "image_compare is a strict total order consistent with ==", "statement": "image_compare is antisymmetric, transitive and total, and returns 0 exactly when operator== holds, so it is a legal ordering for std::map / std::sort and the cache never confuses two different images.", "quantifier": "every pair and triple of images", "why_tests_cant": "transitivity/totality quantify over all triples", "anchors": ["src/ppocr/utils/image_compare.cpp: image_compare", "src/ppocr/ocr2/cache.hpp: def_img_compare"]}
{"id": "C06", "title": "Binary colour (P6) decoding", "statement": "A well-formed P6 file of w*h pixels is accepted and pixel i is a letter exactly when its weighted luma (511,396,117)/1024 is at least the luminance threshold; the luma never overflows a byte; any other data length is rejected with an exception.", "quantifier": "every width/height, every byte content, every threshold", "why_tests_cant": "the input space is all byte strings", "anchors": ["src/ppocr/image/image_from_file.cpp: image_from_file"]}
{"id": "C07", "title": "Binary bitmap (P4) decoding is exact and memory-safe", "statement": "A P4 file is accepted exactly when it has ceil(w/8)*h data bytes; pixel (x,y) is background exactly when its bit is set; no byte outside the file buffer is read.", "quantifier": "every header and every data", "why_tests_cant": "needs all widths up to 2^32-1, including overflow of width+7", "anchors": ["src/ppocr/image/image_from_file.cpp: image_from_file"]}
{"id": "C08", "title": "ASCII (P1/P3) decoding returns only pixels from the file", "statement": "A P1/P3 file with exactly w*h digits (plus blanks) is decoded into those pixels, a file with another number of digits is rejected, and no returned pixel is uninitialised memory.", "quantifier": "every byte string after a valid header", "why_tests_cant": "all digit counts and layouts", "anchors": ["src/ppocr/image/image_from_file.cpp: image_from_file"]}
{"id": "C09", "title": "image_from_file outcome is well-formed for every byte string", "statement": "For every file content the loader either throws or returns an image with positive width and height taken from the header, w*h < 2^32 and a pixel buffer of exactly w*h bytes; headers that are short, have a wrong magic, missing separators, non numeric or >= 2^32 dimensions are rejected.", "quantifier": "every byte string", "why_tests_cant": "input space is all byte strings", "anchors": ["src/ppocr/image/image_from_file.cpp: PnmHeader::parse, image_from_file"]}
{"id": "C10", "title": "File reading is independent of short reads", "statement": "Whatever sequence of positive read(2) sizes the kernel chooses, the loader sees exactly the file content; an error result throws.", "quantifier": "every schedule of read() return values", "why_tests_cant": "the kernel chooses the schedule", "anchors": ["src/ppocr/image/image_from_file.cpp: read_all"]}
{"id": "C11", "title": "Raising the luminance threshold never adds letters", "statement": "For a given P6 file, every pixel that is a letter at threshold b is a letter at any threshold a <= b.", "quantifier": "every file and every pair of thresholds", "why_tests_cant": "relational over two runs on any input", "anchors": ["src/ppocr/image/image_from_file.cpp: image_from_file"]}
{"id": "C12", "title": "make_box_character returns a tight box inside the image", "statement": "Starting at column x0 with the image bounds, a non-empty result is a rectangle inside the image, every column left of it from x0 is blank, its first column, first row and last row contain a letter pixel; no pixel outside the image is read.", "quantifier": "every image and every start column", "why_tests_cant": "all images", "anchors": ["src/ppocr/box_char/make_box_character.cpp: make_box_character, horizontal_empty, vertical_empty"]}
{"id": "C13", "title": "Character segmentation terminates with disjoint boxes in reading order", "statement": "The loop that repeatedly calls make_box_character stops after at most width iterations; boxes come left to right and do not overlap; each box is a maximal run of 8-adjacent columns.", "quantifier": "every image", "why_tests_cant": "termination for every image", "anchors": ["main/ocr2_extract_text.cpp: main", "main/write_glyphs.cpp: load_file", "src/ppocr/box_char/make_box_character.cpp"]}
{"id": "C14", "title": "Segmentation covers every letter pixel", "statement": "Every letter pixel of the image belongs to one of the boxes produced by the segmentation loop.", "quantifier": "every image", "why_tests_cant": "all images, in particular letters touching the right edge", "anchors": ["src/ppocr/box_char/make_box_character.cpp: make_box_character"]}
{"id": "C15", "title": "Interval features stay inside their declared interval", "statement": "density, dzdensity, proportionality, hdirection2, hgravity2, dvdirection2, dvgravity2 return a value in [0,100] and hdirection, hgravity, dvdirection, dvgravity in [0,200], without division by zero, for every non-empty image below the overflow size.", "quantifier": "every non-empty image (area bounded only by 32-bit arithmetic)", "why_tests_cant": "all images", "anchors": ["src/ppocr/strategies/*.cpp: load"]}
{"id": "C16", "title": "Direction and gravity features measure top/bottom letter mass", "statement": "The direction features count the letter pixels strictly above / below the middle row, the gravity features weight them by distance to the middle; the middle row of an odd-height image does not influence them.", "quantifier": "every image", "why_tests_cant": "all images and all modifications of the middle row", "anchors": ["src/ppocr/strategies/utils/horizontal_direction.hpp", "src/ppocr/strategies/utils/horizontal_gravity.hpp"]}
{"id": "C17", "title": "Vertical mirror exchanges top and bottom", "statement": "Mirroring the image top to bottom exchanges the top and bottom measures of hdirection, hgravity, dvdirection and dvgravity.", "quantifier": "every image", "why_tests_cant": "relational property over all images", "anchors": ["src/ppocr/strategies/utils/*.hpp: compute"]}
{"id": "C18", "title": "dzdensity region is safe and half-turn symmetric", "statement": "For images at least 3x3 the scanned span of every row is non-negative and inside the row, the total area is positive, and the value is the same for the image turned by 180 degrees; smaller images give 0.", "quantifier": "every image of less than 2^31/100 pixels (above it the int arithmetic overflows)", "why_tests_cant": "all sizes; rounding of negative C++ integer division", "anchors": ["src/ppocr/strategies/dzdensity.cpp"]}
{"id": "C19", "title": "hbar counts maximal runs of full rows", "statement": "hbar is the number of maximal blocks of consecutive rows made only of letter pixels.", "quantifier": "every image", "why_tests_cant": "all images", "anchors": ["src/ppocr/strategies/hbar.cpp"]}
{"id": "C20", "title": "alternations counts colour changes in seven scans", "statement": "Each of the seven entries is (colour of first cell, 1 + number of colour changes) of the documented row/column or third-of-image projection; no pixel outside the images is read, for every non-empty image.", "quantifier": "every non-empty image of less than 2^31 rows, including heights and widths below 3", "why_tests_cant": "all sizes", "anchors": ["src/ppocr/strategies/alternations.cpp", "src/ppocr/image/image.hpp: AnyPixelGet, next_alternation"]}
{"id": "C21", "title": "Zone labelling computes the 4-connected background components", "statement": "The flood fill terminates, never overflows its stack or buffers, and the zones are exactly the 4-connected components of background pixels, numbered in raster order of their first pixel.", "quantifier": "every image of fewer than 2^31 - 1 pixels (32-bit buffer size)", "why_tests_cant": "correctness of flood fill on all shapes", "anchors": ["src/ppocr/strategies/utils/count_zone.hpp: count_zone_fn::compute"]}
{"id": "C22", "title": "Zone feature vector", "statement": "The zone feature reports whether the corners are letters, how many zones touch each border, and how many touch none; the border counters sum to the number of background pixels on that border.", "quantifier": "every non-empty image of fewer than 2^30 pixels", "why_tests_cant": "all images", "anchors": ["src/ppocr/strategies/zone.cpp", "src/ppocr/strategies/utils/count_zone.hpp: ZoneInfo"]}
{"id": "C23", "title": "proportionality_zone vector is a sorted list of percentages", "statement": "The vector is sorted, has one entry per zone touching a border, and its entries sum to at most 100; no division by zero occurs while loading.", "quantifier": "every non-empty image whose area times 100 fits in 32 bits", "why_tests_cant": "all images", "anchors": ["src/ppocr/strategies/proportionality_zone.cpp: load"]}
{"id": "C24", "title": "Similarities are percentages, reflexive and symmetric", "statement": "For each relationship, compute lies in [0,100] for in-range values, equals 100 for equal values and does not depend on the argument order; comparing any two vectors produced by load never divides by zero.", "quantifier": "every pair of feature values", "why_tests_cant": "all pairs", "anchors": ["src/ppocr/strategies/relationship/*.hpp", "src/ppocr/strategies/utils/relationship.hpp", "src/ppocr/strategies/proportionality_zone.cpp: compute"]}
{"id": "C25", "title": "Distance filter keeps exactly the near candidates", "statement": "reduce_universe_with_distance removes exactly the candidates whose feature differs from the image's feature by more than d and keeps the others in order.", "quantifier": "every candidate list, data table of an interval feature and distance (sums below 2^32)", "why_tests_cant": "all inputs; the predicate is named opposite to what it returns", "anchors": ["src/ppocr/strategies/relationship/interval.hpp: in_dist", "src/ppocr/ocr2/reduce_universe.hpp"]}
{"id": "C26", "title": "Cached contexts are transparent", "statement": "Through any history of loads with a reset before each new image, every feature equals the feature computed without cache; contexts of the normal and rotated image never mix.", "quantifier": "every sequence of images and strategies", "why_tests_cant": "histories are unbounded", "anchors": ["src/ppocr/strategies/utils/context.hpp: cache_context", "src/ppocr/loader2/datas_loader.hpp: Datas::load"]}
{"id": "C27", "title": "Datas::load appends one value per strategy", "statement": "After loading n images every per-strategy table has n entries and entry k is the feature of the k-th image; previous entries are unchanged.", "quantifier": "every sequence of images", "why_tests_cant": "all histories", "anchors": ["src/ppocr/loader2/datas_loader.hpp: Datas, Data"]}
{"id": "C28", "title": "Ordered index range query", "statement": "get_range(x,d) yields each glyph index whose value v satisfies x-d <= v <= x+d exactly once and no other index.", "quantifier": "every data table, x and d with x + d below 2^32", "why_tests_cant": "all tables; correctness of two binary searches", "anchors": ["src/ppocr/ocr2/indexes_ordered.hpp", "src/ppocr/ocr2/data_indexes_ordered.hpp"]}
{"id": "C29", "title": "Candidate buffer never overflows and never invents candidates", "statement": "Throughout compute_image the two fixed-capacity probability buffers, allocated for glyphs.size() entries, are never written past their end and only hold distinct in-range glyph indexes.", "quantifier": "every data set and image", "why_tests_cant": "all data sets", "anchors": ["src/ppocr/ocr2/probabilities.hpp", "src/ppocr/ocr2/compute_image.hpp", "src/ppocr/ocr2/reduce_universe.hpp", "src/ppocr/ocr2/sort_probabilities.hpp"]}
{"id": "C30", "title": "Simple universe is the intersection of the per-strategy balls", "statement": "compute_simple_universe keeps exactly the glyphs whose every simple feature is within a tenth of the interval of the image's feature, each with the product of its similarities as probability.", "quantifier": "every data set, image and strategy list", "why_tests_cant": "all data sets", "anchors": ["src/ppocr/ocr2/compute_image.hpp: compute_simple_universe"]}
{"id": "C31", "title": "compute_image returns the views of the best candidates", "statement": "The result lists the views of surviving candidates in non-increasing probability, is cut at half of the best probability (or keeps exactly the perfect ones), has no two candidates with the same view id, and is empty only when no candidate survives.", "quantifier": "every data set and image", "why_tests_cant": "all data sets, unstable sort included", "anchors": ["src/ppocr/ocr2/compute_image.hpp: compute_image", "src/ppocr/ocr2/insert_views.hpp"]}
{"id": "C32", "title": "Exclusive reduction by word", "statement": "reduce_universe_by_word keeps a candidate exactly when its word has a single glyph or another glyph of the same word satisfies the predicate.", "quantifier": "every candidate list and predicate", "why_tests_cant": "all inputs", "anchors": ["src/ppocr/ocr2/reduce_universe.hpp: reduce_universe_by_word"]}
{"id": "C33", "title": "DataIndexesByWords lists the other glyphs of the same word", "statement": "Entry g contains exactly the indexes of the glyphs other than g whose first view has the same word, each once: the last one of the table first, then the others in order.", "quantifier": "every glyph table whose glyphs have a view", "why_tests_cant": "all tables", "anchors": ["src/ppocr/ocr2/data_indexes_by_words.cpp"]}
{"id": "C34", "title": "View ids identify glyphs with the same word list", "statement": "get_views_indexes_ordered assigns two glyphs the same id exactly when their views have the same words in the same order.", "quantifier": "every glyph table", "why_tests_cant": "all tables, in particular unsorted ones", "anchors": ["src/ppocr/ocr2/views_index_ordered.hpp", "src/ppocr/ocr2/glyphs.hpp: LtViews, EqViews"]}
{"id": "C35", "title": "filter_by_font resolves ambiguities to the dominant font", "statement": "The returned font is a most frequent font among unambiguous letters (or ~0 if none); when it is dominant every ambiguous letter is left with exactly one of its own candidates, of that font if it has one; otherwise nothing changes; unambiguous and empty letters never change.", "quantifier": "every ambiguity table", "why_tests_cant": "all tables", "anchors": ["src/ppocr/ocr2/filter_by_font.cpp"]}
{"id": "C36", "title": "filter_by_lines is memory-safe", "statement": "For every non-empty list of boxes the histogram accesses of filter_by_lines stay inside its buffer and the buffer size is proportional to the spread of the boxes.", "quantifier": "every list of boxes", "why_tests_cant": "all box lists, in particular single boxes and a lowest first box", "anchors": ["src/ppocr/ocr2/filter_by_lines.cpp: MinMaxBox, filter_by_lines"]}
{"id": "C37", "title": "Line filter removes exactly the words inconsistent with the line", "statement": "filter_line removes exactly the groups of views for which the predicate holds (unless only one word is left) and keeps the others in order.", "quantifier": "every candidate list and predicate", "why_tests_cant": "all lists", "anchors": ["src/ppocr/ocr2/filter_by_lines.cpp: filter_line"]}
{"id": "C38", "title": "Letters are filtered by their own position only", "statement": "The candidates kept for a letter by filter_by_lines follow from its own candidates, its own box and the two lines of the text (most frequent bottom, most frequent top), not from other occurrences of the same picture elsewhere in the line.", "quantifier": "every line with repeated pictures", "why_tests_cant": "aliasing through the image cache", "anchors": ["main/ocr2_extract_text.cpp: main", "src/ppocr/ocr2/ambiguous.hpp", "src/ppocr/ocr2/filter_by_lines.cpp"]}
{"id": "C39", "title": "UTF-8 iteration decodes every valid string", "statement": "On the NUL-terminated encoding of any sequence of non-zero scalar values the unicode iterator yields exactly those values then 0, the byte iterator yields their packed bytes then 0, and neither reads past the terminator.", "quantifier": "every string of scalar values", "why_tests_cant": "all strings", "anchors": ["src/ppocr/utils/utf.hpp"]}
{"id": "C40", "title": "Dictionary contains exactly the given words", "statement": "A dictionary built from any list of valid non-empty UTF-8 words accepts exactly those words; order and duplicates in the list do not matter.", "quantifier": "every list of words", "why_tests_cant": "all lists", "anchors": ["src/ppocr/spell/dictionary.cpp: Dictionary", "src/ppocr/container/trie.hpp: trie::insert_after"]}
{"id": "C41", "title": "Flat trie is equivalent to the trie", "statement": "Descending the flattened trie with lower_bound/children reaches exactly the nodes of the source trie with the same terminal flags; children ranges stay inside the node array.", "quantifier": "every trie", "why_tests_cant": "all shapes", "anchors": ["src/ppocr/container/trie.hpp: flat_trie"]}
{"id": "C42", "title": "Dictionary file round trip", "statement": "Reading back what operator<< wrote gives a dictionary with the same nodes, whatever was in the target before.", "quantifier": "every dictionary", "why_tests_cant": "all dictionaries", "anchors": ["src/ppocr/spell/dictionary.cpp: operator<<, operator>>"]}
{"id": "C43", "title": "Word disambiguation is sound, complete and preference ordered", "statement": "The disambiguouser returns true exactly when some choice of one candidate per position spells a dictionary word; it then appends that word (the first in candidate preference order) to the output; otherwise the output is unchanged.", "quantifier": "every dictionary and candidate table", "why_tests_cant": "all tables", "anchors": ["src/ppocr/spell/word_disambiguouser.hpp"]}
{"id": "C44", "title": "Final text assembly", "statement": "disambiguous_with_dict terminates, puts exactly one space at each inner word boundary, appends one item per letter in order, and returns the number of letters without candidates, each shown as '?'.", "quantifier": "every ambiguity table, dictionary and space list", "why_tests_cant": "all tables", "anchors": ["src/ppocr/ocr2/disambiguous_with_dict.cpp"]}
{"id": "C45", "title": "replace_words terminates and eliminates the pattern", "statement": "For every text and replacement list replace_words returns; afterwards no occurrence of the last pattern remains.", "quantifier": "every text and replacement list", "why_tests_cant": "termination over all inputs", "anchors": ["src/ppocr/ocr2/replacement.hpp: replace_words"]}
{"id": "C46", "title": "Glyph file round trip", "statement": "Reading with the learning loader what it wrote gives equal glyphs in the same order.", "quantifier": "every glyph list with non-empty blank-free words and fonts", "why_tests_cant": "all glyph lists", "anchors": ["src/ppocr/loader2/glyphs_loader.cpp", "src/ppocr/loader2/image_io.cpp"]}
{"id": "C47", "title": "Runtime glyph loader agrees with the learning loader", "statement": "The runtime loader reads the same file into the same glyph order with the same words, two views get the same word id exactly when their words are equal, and get_word returns the stored word.", "quantifier": "every glyph file", "why_tests_cant": "all files", "anchors": ["src/ppocr/ocr2/glyphs.cpp", "src/ppocr/ocr2/glyphs.hpp: Glyphs::get_word"]}
{"id": "C48", "title": "Word buffer is memory-safe and NUL terminated", "statement": "Building the interned word buffer never writes outside it and each stored word is followed by a NUL byte.", "quantifier": "every set of words", "why_tests_cant": "all word lengths", "anchors": ["src/ppocr/ocr2/glyphs.cpp: operator>>"]}
{"id": "C49", "title": "word_index_of finds exactly the stored word", "statement": "word_index_of(s) returns the id of the word equal to s, or no_index when s is not a stored word.", "quantifier": "every word set and query", "why_tests_cant": "all sets", "anchors": ["src/ppocr/ocr2/glyphs.hpp: Glyphs::word_index_of"]}
{"id": "C50", "title": "WordsInfos lookup", "statement": "get(w) returns an entry for w exactly when one was registered for w, and it is one of the registered entries for w.", "quantifier": "every list of entries", "why_tests_cant": "all lists", "anchors": ["src/ppocr/ocr2/words_infos.hpp"]}
{"id": "C51", "title": "Glyph normalisation merges duplicates without losing views", "statement": "normalize_glyphs outputs one glyph per distinct image, in image order, whose views are exactly the union of the views of the input glyphs with that image.", "quantifier": "every glyph list", "why_tests_cant": "all lists", "anchors": ["main/normalize_glyphs.cpp: main"]}
{"id": "C52", "title": "Datas file round trip", "statement": "Reading the feature file written from a feature table gives back the same table.", "quantifier": "every feature table", "why_tests_cant": "all tables", "anchors": ["src/ppocr/defined_loader.hpp: operator<<, operator>>"]}
{"id": "C53", "title": "Datas::eq and Datas::lt are an equivalence and a strict weak order", "statement": "eq holds exactly when all features agree; lt orders rows lexicographically so it can be used with std::sort.", "quantifier": "every feature table and rows", "why_tests_cant": "all tables", "anchors": ["src/ppocr/loader2/datas_loader.hpp: cmp_datas, Datas::lt, Datas::eq"]}
{"id": "C54", "title": "reindex permutes", "statement": "reindex with a permutation moves element indexes[k] to position k and keeps every element.", "quantifier": "every vector and permutation", "why_tests_cant": "all permutations", "anchors": ["src/ppocr/utils/reindex.hpp"]}
{"id": "C55", "title": "ImageContext buffer reuse is safe", "statement": "Through any sequence of img/img90 calls the two images always point inside the owned buffer, do not overlap, nothing is freed twice, and img90 is the rotation of the last image.", "quantifier": "every call sequence and sizes", "why_tests_cant": "all histories", "anchors": ["src/ppocr/ocr2/image_context.hpp"]}
{"id": "C56", "title": "Image cache is transparent", "statement": "A letter image met again gets the same candidate list object that was computed the first time; a different image never hits that entry.", "quantifier": "every sequence of letter images", "why_tests_cant": "all histories", "anchors": ["main/ocr2_extract_text.cpp: main", "src/ppocr/ocr2/cache.hpp"]}
{"id": "C57", "title": "Line description reader", "statement": "The words-lines reader keeps, in order, the entries whose word has at most 8 bytes with their four flags modulo 8 and stops at the first malformed entry.", "quantifier": "every input text", "why_tests_cant": "all byte strings", "anchors": ["src/ppocr/ocr2/word_lines.cpp"]}
{"id": "C58", "title": "Dictionary compiler end to end", "statement": "Compiling any word list file to a trie file and loading it yields a dictionary that disambiguates to exactly the words of the list.", "quantifier": "every word list", "why_tests_cant": "all lists", "anchors": ["main/make_trie_dictionary.cpp", "src/ppocr/spell/dictionary.cpp", "src/ppocr/spell/word_disambiguouser.hpp"]}
{"id": "C59", "title": "Replacement files", "statement": "Every replacement file is read to its end; a file with one entry per line, a pattern and optionally a blank and its replacement, each line ended by a newline, gives exactly these entries in order; no entry ever has an empty pattern.", "quantifier": "every text", "why_tests_cant": "all texts", "anchors": ["src/ppocr/ocr2/replacement.cpp"]}
{"id": "C60", "title": "Recognition is total with learnt tables", "statement": "With tables of features computed from the pictures of the glyphs, and a glyph table of the same size, every letter picture gets a candidate list without undefined behaviour or exception, and every candidate is a view of the glyph table; tables of different sizes are refused with an exception. The letters for which this fails are exactly those for which the search through the glyphs of a word reaches one whose border zones clash with those of the letter.", "quantifier": "every set of glyph pictures, every glyph table and every letter", "why_tests_cant": "all pictures, all glyph tables; any sort implementation", "anchors": ["main/ocr2_extract_text.cpp: main", "src/ppocr/defined_loader.hpp", "src/ppocr/ocr2/compute_image.hpp: compute_image", "src/ppocr/ocr2/data_indexes_by_words.cpp"]}
{"id": "C61", "title": "A learnt glyph is recognised", "statement": "A letter that is pixel for pixel the picture of a learnt glyph gets that glyph's words among its candidates, and only glyphs that no simple strategy tells apart from it besides.", "quantifier": "every set of glyph pictures and every glyph table", "why_tests_cant": "all pictures, all glyph tables; any sort implementation", "anchors": ["main/ocr2_extract_text.cpp: main", "src/ppocr/ocr2/compute_image.hpp: compute_image", "src/ppocr/ocr2/sort_probabilities.hpp", "src/ppocr/ocr2/views_index_ordered.hpp"]}
{"id": "C62", "title": "The program answers on every line", "statement": "With features learnt from the glyphs, a glyph file with its words, a sorted table of word lines and a dictionary, ocr2_extract_text on a line image ends with an answer (no undefined behaviour, exception or endless loop), counts every letter of the segmentation once, and shows the text that the candidates of the letters give.", "quantifier": "every line image, glyph set, word table and dictionary", "why_tests_cant": "all images and all files; the composition of segmentation, cache, recognition, filters and dictionary", "anchors": ["main/ocr2_extract_text.cpp: main", "src/ppocr/ocr2/filter_by_lines.cpp", "src/ppocr/ocr2/filter_by_font.cpp"]}
{"id": "C63", "title": "A line of learnt glyphs is read back", "statement": "A line whose letters all mean one word each (the learnt glyphs alike to the letter stand for that word only) is printed as these words in reading order, with one space at each gap of more than four blank columns, and no letter counts as not recognised.", "quantifier": "every line image, glyph set, word table and dictionary", "why_tests_cant": "all images and all files; end to end", "anchors": ["main/ocr2_extract_text.cpp: main", "src/ppocr/ocr2/compute_image.hpp: compute_image", "src/ppocr/ocr2/disambiguous_with_dict.cpp"]}
{"id": "C64", "title": "The line filter only removes", "statement": "Whenever filter_by_lines returns, every candidate list is a subsequence of what it was, lists of one word are unchanged, and there are as many lists as before.", "quantifier": "every word table, line and candidate lists", "why_tests_cant": "all lines", "anchors": ["src/ppocr/ocr2/filter_by_lines.cpp: filter_by_lines"]}
{"id": "C65", "title": "write_glyphs writes one glyph per letter", "statement": "For a line image and a text whose words (pieces between blanks) are as many as the letters of the segmentation, write_glyphs prints, in reading order, one glyph per letter with the picture of the letter, the word at the same place of the text and the font, and read back they are those glyphs; with fewer or more words it ends with an exception after writing the glyphs it had words for; several lines are written one after the other.", "quantifier": "every image, text, font and list of lines", "why_tests_cant": "all images and all texts", "anchors": ["main/write_glyphs.cpp: load_file", "main/write_glyphs.cpp: main", "src/ppocr/loader2/glyphs_loader.cpp"]}
{"id": "C66", "title": "write_datas writes the features of the glyphs", "statement": "On a file that holds glyphs (and nothing else), write_datas prints the table of features learnt from their pictures, in the order of the file, with exit code 0, and reading that table back gives the same table.", "quantifier": "every list of glyphs with pictures of bounded size", "why_tests_cant": "all glyph files", "anchors": ["main/write_datas.cpp: main", "src/ppocr/loader2/datas_loader.hpp", "src/ppocr/loader2/glyphs_loader.cpp"]}
{"id": "C67", "title": "What was learnt from lines is read on another line", "statement": "After write_glyphs on lines with their texts and write_datas on its output, ocr2_extract_text prints, for a line each of whose letters looks like some shown letter, and only like letters shown with one word, these words in reading order with one space at each gap of more than four blank columns, and counts no letter as not recognised.", "quantifier": "every set of lessons, every line image, optional file of positions and dictionary", "why_tests_cant": "all images and texts; composition of three programs through their files", "anchors": ["main/write_glyphs.cpp: main", "main/write_datas.cpp: main", "main/ocr2_extract_text.cpp: main"]}
{"id": "C68", "title": "Text behind the contents of a file is refused", "statement": "ocr2_extract_text prints no text when, behind the features, the dictionary, the glyphs or the positions of its files, there is something that is not a number.", "quantifier": "every content of the four files and every such text behind it", "why_tests_cant": "all file contents and all texts behind them", "anchors": ["src/ppocr/utils/read_file.hpp: check_read_file", "main/ocr2_extract_text.cpp: main", "src/ppocr/ocr2/glyphs.cpp: operator>>", "src/ppocr/ocr2/word_lines.cpp: operator>>"]}
{"id": "C69", "title": "A file cut short is refused", "statement": "When a glyph, feature, position or dictionary file with which ocr2_extract_text prints a text is cut short, and more than blanks is missing, the program ends with an exception.", "quantifier": "every set of files and every place of the cut", "why_tests_cant": "all files and all places", "anchors": ["src/ppocr/utils/read_file.hpp: check_read_file", "main/ocr2_extract_text.cpp: main"]}
{"id": "C70", "title": "Only loading throws", "statement": "If ocr2_extract_text ends with an exception, then one of its files could not be loaded or the number of glyphs differs from the number of features: once everything is loaded, recognition ends with no exception.", "quantifier": "every set of files", "why_tests_cant": "all files, images and states of the recogniser", "anchors": ["main/ocr2_extract_text.cpp: main"]}
{"id": "C71", "title": "Normalising does not depend on order", "statement": "normalize_glyphs writes the same bytes whatever std::sort does with equivalent elements and in whatever order the glyphs, or the accepted files on the command line, are given; a file it has written is written again byte for byte. Each glyph written is one that was read, unchanged and alone with its image, or has its views in strictly increasing order.", "quantifier": "every list of glyphs whose images hold all their pixels; every list of files; every conforming std::sort", "why_tests_cant": "all permutations of the input and all sort implementations", "anchors": ["main/normalize_glyphs.cpp: main"]}
{"id": "C72", "title": "The text does not depend on std::sort", "statement": "For the same files ocr2_extract_text answers the same text and counts, whatever std::sort does with equivalent elements.", "quantifier": "every set of files; every two conforming std::sort", "why_tests_cant": "all sort implementations: a test runs with the one of its standard library", "anchors": ["main/ocr2_extract_text.cpp: main", "src/ppocr/ocr2/compute_image.hpp: compute_image", "src/ppocr/ocr2/sort_probabilities.hpp", "src/ppocr/ocr2/views_index_ordered.hpp", "src/ppocr/ocr2/words_infos.hpp: WordsInfos"]}
{"id": "C73", "title": "show_glyphs shows what write_glyphs learns", "statement": "show_glyphs prints, for each image given and from left to right, each letter in a frame, one character per pixel; the output tells the number, sizes and pixels of the letters. With the same threshold they are the pictures that write_glyphs writes. An image that cannot be read ends the tool after what comes before it was shown.", "quantifier": "every list of images; every threshold; every two lists of pictures with the same output", "why_tests_cant": "all images, and injectivity of the output over all lists of pictures", "anchors": ["main/show_glyphs.cpp: main", "main/write_glyphs.cpp: main", "src/ppocr/image/image.cpp: operator<<"]}
{"id": "C74", "title": "The luminance option", "statement": "-l with a decimal number in front uses this number as the luminance threshold in show_glyphs and write_glyphs; anything that is not a decimal number ends the tool with the code 2 before a file is opened.", "quantifier": "every string behind -l; every further argument; every disk", "why_tests_cant": "all strings, including numbers beyond the range of the type", "anchors": ["main/show_glyphs.cpp: main", "main/write_glyphs.cpp: main", "src/ppocr/image/image_from_file.cpp"]}
{"id": "C75", "title": "What ocr2_extract_text prints", "statement": "A run that answers prints whether the dictionary has words (if one is given), the numbers of features and glyphs, then every different letter of the line once, in the order in which they appear first, in a frame and with the words it was recognised as, and last the text and the counts. A run that cannot read a file ends with an exception and has printed what comes before this file. However a run ends, it ends as the reading of the line does that the other properties are about, with exit status 0 exactly when that gives an answer: printing changes nothing.", "quantifier": "every set of files, every line image, every conforming std::sort", "why_tests_cant": "all lines and files; the letters are shown once each although the cache is keyed by the picture", "anchors": ["main/ocr2_extract_text.cpp: main", "src/ppocr/image/image.cpp: operator<<", "src/ppocr/ocr2/glyphs.cpp: operator<<"]}
{"id": "C76", "title": "The report counts what was not recognised", "statement": "The report of ocr2_extract_text gives the number of letters, counts at least every letter that nothing was found for as not recognised, and its rate is the percentage of these.", "quantifier": "every line, glyph set, word table and dictionary for which the program answers", "why_tests_cant": "all lines; the code inverts a condition so that the divisor is only used when it is 0, and letters at the start go through a loop of their own", "anchors": ["main/ocr2_extract_text.cpp: main", "src/ppocr/ocr2/disambiguous_with_dict.cpp: disambiguous_with_dict"]}
{"id": "C77", "title": "Normalising the glyphs does not change what is read", "statement": "Running normalize_glyphs between write_glyphs and write_datas, as the learning script does, does not change what ocr2_extract_text answers; nor does the order in which the lines were learnt or how they are spread over the glyph files.", "quantifier": "every set of lines to learn from, every spread of them over files, every line image read, every conforming std::sort", "why_tests_cant": "all lines and glyph sets; equal pictures are merged, so the tables that are searched differ in length and order", "anchors": ["main/normalize_glyphs.cpp: main", "main/write_glyphs.cpp: main", "main/write_datas.cpp: main", "main/ocr2_extract_text.cpp: main", "learning"]}
{"id": "C78", "title": "Blank margins around a line do not change what is read", "statement": "ocr2_extract_text answers the same for two pictures of which one is the other with blank columns and rows added on any side: the same text and counts, or the same failure.", "quantifier": "every glyph set, feature table, word table, dictionary and std::sort, every line image and every number of blank rows and columns on each side", "why_tests_cant": "all images and all margins; coordinates are absolute 32-bit numbers that pass through histograms, differences and a gap test", "anchors": ["main/ocr2_extract_text.cpp: main", "src/ppocr/box_char/make_box_character.cpp: make_box_character", "src/ppocr/ocr2/filter_by_lines.cpp: filter_by_lines"]}
{"id": "C79", "title": "Blank margins around the lines to learn from do not change what is learned", "statement": "write_glyphs writes the same glyphs and ends in the same way when blank columns and rows are added on any side of the pictures it learns from, so everything read afterwards is the same.", "quantifier": "every list of line images, word files and fonts, every number of blank rows and columns on each side of each image", "why_tests_cant": "all images and all margins, including lines on which the program fails in the middle", "anchors": ["main/write_glyphs.cpp: load_file", "src/ppocr/box_char/make_box_character.cpp: make_box_character", "src/ppocr/image/image.cpp: section"]}
{"id": "C80", "title": "box shows every character and its place", "statement": "For each image named on its command line the tool box prints the name and then each character with its place and its picture; what is printed determines the letter pixels of the image in front of its last column. With any arguments the tool ends with an exit code if the images are good.", "quantifier": "every image, every list of arguments and files", "why_tests_cant": "all images and command lines; whether two different images can look alike in the output", "anchors": ["main/box.cpp: main", "src/ppocr/box_char/box.cpp: operator<<", "src/ppocr/image/image.cpp: operator<<"]}
{"id": "C81", "title": "A picture drawn as a string", "statement": "image_from_string(bnd, s) with width*height not zero and below 2^32 returns, for a string of exactly width*height characters whose last one is 'x' or '-', the image whose pixel in column x of row y is character y*width+x; any other string of at least that length stops at the assert, and for a shorter string the function reads behind the terminator. With no pixels no string is accepted. Printed, a drawing of x and - shows its characters row by row in the frame. If width*height does not fit in 32 bits the image returned has fewer cells than its bounds say.", "quantifier": "for all bounds and all C strings", "why_tests_cant": "the tests use a handful of drawings that fit; they never pass a string of the wrong size, an empty one, or an area beyond 32 bits", "anchors": ["src/ppocr/image/image_from_string.cpp:25-35", "src/ppocr/image/coordinate.hpp:59", "src/ppocr/image/image.cpp:83-98"]}
{"id": "C82", "title": "Coordinates are written and read back", "statement": "operator>> of Index and of Bounds stores x and y if and only if the text begins with two numbers of unsigned range (blanks before each, a sign allowed, -k standing for 2^32-k) and stops behind the second; otherwise, and on a stream that has already failed, the variable keeps its value and the stream is failed. What operator<< writes is read back whatever follows, if it is no digit, and different coordinates are written differently.", "quantifier": "for all texts, all pairs of 32-bit numbers, all previous values", "why_tests_cant": "no test reads coordinates from damaged text, with signs, or at the ends of the range", "anchors": ["src/ppocr/image/coordinate.cpp:26-48"]}
{"id": "C83", "title": "extract_text8 merges the glyphs with the same features", "statement": "Before it reads the image, extract_text8 merges the glyphs whose twenty features are all the same, and only these: afterwards no two glyphs have the same features and every learnt word belongs to a glyph with its features. This is false of the code. With i the glyph that is first in the order of its first strategy: if no glyph or exactly two glyphs differ from i, all glyphs are kept (the equal ones too); for any other number the behaviour is undefined before the image is read. So with two, or with four or more, learnt pictures that all differ the program never gets to the image.", "quantifier": "for all tables of fewer than 2^32 rows, all lists of words, every std::sort and every content of a moved-from string", "why_tests_cant": "no test runs extract_text8; undefined behaviour shows up or not depending on the allocator and the implementation of std::copy_if", "anchors": ["main/extract_text8.cpp:535-559", "main/extract_text8.cpp:561-580", "main/extract_text8.cpp:605-686", "src/ppocr/utils/reindex.hpp"]}
{"id": "C84", "title": "extract_text6 computes of a letter the features that learning stores", "statement": "For each of the 25 strategies, the value that extract_text6 (and extract_text8) computes of a letter is the one that PpOcrDatas::load stores when the same picture is learnt. This is false of the code: data_for_strategy::load goes through loader2::load, which exchanges the picture and the turned picture, and Strategy::load exchanges them once more. So for every strategy the value is the one stored for the unturned picture; it is the right one for the strategies of the unturned picture and for pictures that look the same turned.", "quantifier": "for all pictures of a reasonable size and all registered strategies", "why_tests_cant": "no test compares the features of the tool with those of the learner; each of the two exchanges is right on its own", "anchors": ["main/extract_text6.cpp:401-413", "src/ppocr/loader2/datas_loader.hpp:52-70", "src/ppocr/loader2/datas_loader.hpp:103-112"]}
{"id": "C85", "title": "The words that extract_text6 finds for a letter", "statement": "Taught pictures of a reasonable size, each with at least one word, extract_text6 builds its tables, and the candidates of a letter are exactly the words of the chosen pictures. A picture matches if its twenty simple features have the same tens as those of the letter; if pictures match, these are chosen; otherwise those that are near (the tens of the rotated dvdirection may differ by two), have the same horizontal bars and at least four of seven alternations, and that are alone with their first word or share it with another picture that has the zones of the letter. result2 and the cache get these words, or \"_\" if there are none; result1 gets the first word of a near picture, or \"_\". The only other outcome is a division by zero, when no picture matches and a picture with the first word of a near one clashes with the letter. The set of candidates does not depend on std::sort.", "quantifier": "for all lists of pictures and words, all letters, every std::sort", "why_tests_cant": "the candidates come from bit masks in categories of a sorted table, merged by word; tests with a few glyphs never cross a mask word or a category border", "anchors": ["main/extract_text6.cpp:172-219", "main/extract_text6.cpp:321-396", "main/extract_text6.cpp:415-518", "main/extract_text6.cpp:568-688", "main/extract_text6.cpp:765-790"]}
{"id": "C86", "title": "extract_text6 finds a learnt picture", "statement": "A letter that is, pixel by pixel, one of the learnt pictures has the words of that picture among its candidates. This is false of extract_text6, because of C84: it holds for pictures whose features have the same tens when turned, for example those that look the same turned; a picture for which one of them, other than dvdirection, has other tens never gets a word from itself, and gets none (\"_\") when no other learnt picture is near.", "quantifier": "for all lists of learnt pictures and words and every picture among them, every std::sort", "why_tests_cant": "a test with symmetric shapes passes; the failure needs a letter that is not symmetric, and the outcome then depends on all other glyphs", "anchors": ["main/extract_text6.cpp:401-413", "main/extract_text6.cpp:568-688"]}
{"id": "C87", "title": "The text (result3) of extract_text6", "statement": "result3 of extract_text6 is the text of all candidates along the line: each longest run of letters of words is replaced by the first choice of candidates that is in the dictionary (as WordDisambiguouser spells it), or by the first candidates if there is none; spaces, ' , . ! ? \" and letters without candidates are no letters of words and appear in their place as themselves, or as '?'. This is false of the code at the start of the line: std::find_if_not skips all leading separators and unrecognised letters without writing them. The rest is as stated.", "quantifier": "for all dictionaries, all lists of candidates in UTF-8, every std::sort in the making of the dictionary", "why_tests_cant": "no test runs the tool, and the loss needs a line that starts with a quotation mark, a space or an unreadable letter", "anchors": ["main/extract_text6.cpp:832-872", "src/ppocr/spell/word_disambiguouser.hpp:30-100"]}
{"id": "C88", "title": "The letters of a line in extract_text6", "statement": "extract_text6 cuts a line at the boxes of C13; result1 and result2 have, in the order of the line, one word per letter with a space behind each, namely the words of C85 for the picture of the letter, the same word for the same picture. The candidates handed to the text are those of C85 for the first letter with a picture and those remembered in the cache for the later ones, with a space element exactly where more than four columns are blank before a letter. The only other outcome is a division by zero, and then the picture of one of the letters makes it (Jam6).", "quantifier": "for all lists of learnt pictures and words, all line images of a reasonable size, every std::sort", "why_tests_cant": "the cache is keyed by pixel comparison and holds references into a map; a wrong entry shows only on lines with repeated letters", "anchors": ["main/extract_text6.cpp:794-827", "main/extract_text6.cpp:568-688"]}
{"id": "C89", "title": "Equal letters of a line have equal candidates in extract_text6", "statement": "Two letters of a line that show the same picture have the same candidates. This is false of extract_text6: for a picture that is not recognised the first letter gets no candidates ('?' in result3), while the cache holds \"_\" for it, so each later one gets the candidate \"_\", which moreover is a letter of a word. It is true of every picture that is recognised, the candidates then being the words of the chosen pictures (C85).", "quantifier": "for all lists of learnt pictures and words, all line images of a reasonable size, all pairs of letters, every std::sort", "why_tests_cant": "the difference shows only on the second unreadable copy of a letter in a line", "anchors": ["main/extract_text6.cpp:622-688", "main/extract_text6.cpp:810-824"]}
{"id": "C90", "title": "What extract_text6 prints", "statement": "On the glyph and datas files that the learning tools write for a list of glyphs, a dictionary file or none, and the image of a line, extract_text6 prints three results: per letter of the line the first near word and the first chosen word of C85 with spaces, and the text of C87 of the candidates of C88, where the words are those of the glyph files whatever their repetitions. The only other outcome is a division by zero, and then the picture of a letter makes it.", "quantifier": "for all lists of glyphs of a reasonable size with words in UTF-8, all dictionaries, all line images, every std::sort", "why_tests_cant": "the program has no tests; the statement spans four file formats, the sort, the masks, the cache and the text", "anchors": ["main/extract_text6.cpp:732-882"]}
{"id": "C91", "title": "The words extract_text8 finds for a letter", "statement": "With tables of learnt pictures and their words, compute_image of extract_text8 returns for a letter: the words of all pictures whose twenty stored features are those of the letter (never turned); if there are none, those of the most probable pictures among those that are near (each feature within a tenth of its interval), have the same bars and, if other pictures have the same first word, one of these has the zones of the letter. The probability is the product of the similarities of the features and of the alternations. The first result is the first word of the most probable near picture. The only other outcome is a division by zero, exactly described by Jam8. Two sorts give the same candidates.", "quantifier": "for all lists of learnt pictures of a reasonable size, all lists of words, all letters, every std::sort, every double arithmetic with the stated laws", "why_tests_cant": "the tool has no tests; the claim spans 20 features, two complex and the exclusive strategies and the comparison of products of percentages", "anchors": ["main/extract_text8.cpp:376-519", "main/extract_text8.cpp:274-374", "main/extract_text8.cpp:535-559"]}
{"id": "C92", "title": "extract_text8 recognises the pictures it learnt", "statement": "A letter that looks exactly like a learnt picture has the words of the picture among its candidates in extract_text8. This is false of the code: the features of the turned picture are compared with those of the letter that is not turned. It is true of pictures whose features are the same turned; if one differs by more than a tenth of its interval, the letter gets no word from its own picture.", "quantifier": "for all lists of learnt pictures and words, all letters among them, every std::sort", "why_tests_cant": "whether a picture is lost depends on twenty features of it and of the turned picture", "anchors": ["main/extract_text8.cpp:260-272", "main/extract_text8.cpp:407-449"]}
{"id": "C93", "title": "What extract_text8 prints", "statement": "On the glyph and datas files that the learning tools write, a dictionary file or none, and the image of a line, extract_text8 prints per letter of the line the two words of C91 with spaces, and the text of C87 of the candidates; the only other outcome is the division by zero of a letter. This is false of the code: with two glyphs, or more than three, whose features all differ it does not get to the image but reads the front of an empty vector. It is true if all glyphs have the same features, for example if there is only one.", "quantifier": "for all lists of glyphs of a reasonable size with words in UTF-8, all dictionaries, all line images, every std::sort, every moved-from string", "why_tests_cant": "the program has no tests; the statement spans four file formats, the sort, the masks, the cache and the text", "anchors": ["main/extract_text8.cpp:581-784"]}
{"id": "C94", "title": "Rounding neither makes nor spoils a match", "statement": "Calculated with IEEE doubles rounded to nearest even, the probability that extract_text8 computes for a learnt picture is never greater than 1, and it is 1 exactly if all twenty features are those of the letter: no rounding error of the twenty products and divisions by 100 makes up for a difference, and none spoils a match. A similarity is 100 percent exactly if the feature is the same.", "quantifier": "for all pictures and letters of a reasonable size", "why_tests_cant": "whether p * 100 / 100 returns to p depends on the bits of p; a test sees single numbers", "anchors": ["main/extract_text8.cpp:376-386", "main/extract_text8.cpp:436-452"]}
{"id": "C95", "title": "extract_text6 reads back the line it has learnt", "statement": "After write_glyphs and write_datas have learnt from lines and their texts, and letters that look alike were shown with the same word, extract_text6 without a dictionary prints of such a line its words, each with a space behind it, as first and second result, and as text the words with a space where more than four columns of the line are blank.", "quantifier": "for all lines learnt from, all texts in UTF-8 and all fonts", "why_tests_cant": "the two learning tools and the reader are three programs linked by files; a test runs them on some lines only", "anchors": ["main/write_glyphs.cpp: load_file", "main/write_datas.cpp: main", "main/extract_text6.cpp:732-882"]}
{"id": "C96", "title": "The rounding of double does not change the recognised text", "statement": "ocr2 prints the text that it would print if the probabilities of the glyphs, products of percentages, were calculated exactly instead of in double. What double calculates for a glyph differs from the exact product by less than one part in 2^47.", "quantifier": "for all files and lines, and all sorts that std::sort may be", "why_tests_cant": "whether roundings change an order depends on the percentages of all glyphs of a font; a test sees the orders of some letters only", "anchors": ["src/ppocr/ocr2/compute_image.hpp:105-227", "src/ppocr/ocr2/reduce_universe.hpp:54-70", "src/ppocr/ocr2/sort_probabilities.hpp:29-73", "main/ocr2_extract_text.cpp"]}
{"id": "C97", "title": "The learning script", "statement": "The script learning runs write_glyphs on every picture, then normalize_glyphs and write_datas. On pictures with as many letters as their texts have words it ends with 0 and leaves, for the Latin pictures, the Cyrillic ones and both together, a glyph file with every different letter picture once, in order, with exactly the words and fonts it was shown with, and a file with the features of these pictures in the same order; the files do not depend on the order in which the shell lists the pictures. A run that fails leaves the normalised glyph files and the files of features as they were.", "quantifier": "for all pictures, texts and fonts, all files that were there before and all sorting algorithms", "why_tests_cant": "it is a property of three programs linked by a shell script, over all collections of fonts; no test runs the script", "anchors": ["learning:12-43", "main/write_glyphs.cpp:51-120", "main/normalize_glyphs.cpp:31-94", "main/write_datas.cpp:34-72"]}
{"id": "C98", "title": "A line may be cut between letters", "statement": "If a picture of a line is cut behind a blank column, the letters found on it are those of the first part followed by those of the second, each at its place. So show_glyphs shows for the line what it shows for its two parts, and write_glyphs with both texts learns from the line exactly what it learns from its two parts, provided the first part has as many letters as words; whatever is read with the learned files is the same.", "quantifier": "for all pictures of two rows or more (up to 2^32 pixels with one more row), all places of the cut behind a blank column, all texts, fonts, thresholds, lines before and behind, sorting algorithms", "why_tests_cant": "a relation between three runs on three pictures, for all pictures and places of the cut; the tests look at single pictures", "anchors": ["main/box.cpp:46-60", "src/ppocr/box_char/make_box_character.cpp", "main/write_glyphs.cpp:51-93", "main/show_glyphs.cpp: main", "main/ocr2_extract_text.cpp:105-167"]}
{"id": "C99", "title": "Learning more letters does not spoil what is read", "statement": "Glyphs that are far from a letter (for some simple strategy, the features differ by more than a tenth of its interval) do not change the candidates of the letter when they are learned too; so a line that was read keeps its text after lessons with other letters.", "quantifier": "for all tables of pictures and words, all glyphs added at any places, all letters, renumberings of words and fonts, sorting algorithms; for all lessons and lines", "why_tests_cant": "compares recognition with two different tables for all tables and letters; a test has one table", "anchors": ["src/ppocr/ocr2/compute_image.hpp", "src/ppocr/ocr2/reduce_universe.hpp: reduce_universe_by_word", "src/ppocr/ocr2/data_indexes_by_words.cpp", "src/ppocr/ocr2/views_index_ordered.hpp", "main/ocr2_extract_text.cpp:83-167"]}
{"id": "C100", "title": "What is read of a line depends on its letters, their rows and where the spaces are", "statement": "ocr2_extract_text answers the same for two line pictures that hold the same letters in the same order and rows, and whose gaps of more than four blank columns (from the left edge to the first letter included) come before the same letters: the same text and counts, or the same failure. The columns the letters stand in and the widths of the gaps on either side of that limit do not count. So blank columns put in behind five blank ones change nothing.", "quantifier": "every glyph set, feature table, word table, dictionary and std::sort, every two line pictures (up to 2^32 pixels with one more row) that are divided into letters, also for letters that divide by zero and files that are refused", "why_tests_cant": "a relation between two runs on all pairs of pictures; a test looks at one picture", "anchors": ["main/ocr2_extract_text.cpp:105-197", "src/ppocr/box_char/make_box_character.cpp: make_box_character", "src/ppocr/ocr2/filter_by_lines.cpp: filter_by_lines"]}
{"id": "C101", "title": "Lines that show_glyphs shows alike teach the same", "statement": "If show_glyphs shows the same for two line pictures, to the end, then write_glyphs writes the same for them with any text and font, and ends alike; so everything read afterwards is the same. Conversely, if write_glyphs writes the same for two pictures with one text of as many words as letters, show_glyphs shows the same for them. Where the letters stand in the picture does not count.", "quantifier": "for all picture files (up to 2^32 pixels with one more row), thresholds, texts, fonts, numbers of lines; for all lines read afterwards, sorting algorithms, dictionaries and word tables", "why_tests_cant": "two tools on all pairs of pictures; a test would compare single outputs", "anchors": ["main/show_glyphs.cpp:31-43", "main/write_glyphs.cpp:51-93", "src/ppocr/box_char/make_box_character.cpp: make_box_character"]}
{"id": "C102", "title": "What extract_text6 and extract_text8 print depends on the letters of a line and its spaces", "statement": "extract_text6 and extract_text8 answer the same for two line pictures that hold the same letters in the same order and whose gaps of more than four blank columns come before the same letters, the first letter left out: the same three results, or the same failure. Neither the rows nor the columns of the letters count. So blank margins on any side of a line of two rows or more (with a blank last column if columns are added behind it) change nothing, and neither do blank columns put in behind five blank ones. The first two results do not even depend on the spaces.", "quantifier": "every glyph set, feature table, dictionary and std::sort, every behaviour of moved-from strings and every arithmetic of probabilities (extract_text8), every two line pictures (up to 2^32 pixels with one more row) that are divided into letters, also where a letter is undefined behaviour and for files that are refused", "why_tests_cant": "a relation between two runs on all pairs of pictures; a test looks at one picture", "anchors": ["main/extract_text6.cpp:794-882", "main/extract_text8.cpp:690-784", "src/ppocr/box_char/make_box_character.cpp: make_box_character"]}
{"id": "C103", "title": "extract_text6 and extract_text8 read a line as they read its parts", "statement": "When the picture of a line is cut behind a blank column, extract_text6 prints for the line, in its first and its second result, what it prints for the left part and then what it prints for the right part. If more than four columns are blank at the cut and every letter that stands in both parts is recognised, its text is that of the left part, a space, the separators the right part begins with (not printed for the right part alone) and the text of the right part; if nothing is printed for the left part, it is the text of the right part. The line divides by zero only if one of the parts does. The same holds for extract_text8 when all glyphs have the same features. Without the condition on the letters it does not: a letter that is not recognised is a question mark the first time and an underscore afterwards.", "quantifier": "every glyph set and feature table the learning tools write for pictures whose features do not overflow, every dictionary, every std::sort, every arithmetic of probabilities (extract_text8), every line of at least two rows and every cut behind a blank column, below 2^31 pixels", "why_tests_cant": "a relation between three runs on all lines and all cuts; a test looks at one line", "anchors": ["main/extract_text6.cpp:794-882", "main/extract_text8.cpp:690-784", "main/extract_text6.cpp:838-870"]}
{"id": "C104", "title": "ocr2_extract_text reads a line as it reads its parts", "statement": "When the picture of a line is cut at a space (more than four blank columns), ocr2_extract_text prints for the line what it prints for the left part, a space and what it prints for the right part; the letters and the unrecognised letters of the line are those of the parts together.", "quantifier": "every set of lines learnt from, every dictionary and table of positions, every std::sort, every line and every cut", "why_tests_cant": "a relation between three runs on all lines and all cuts; a test looks at one line", "anchors": ["main/ocr2_extract_text.cpp:109-197", "src/ppocr/ocr2/filter_by_font.cpp", "src/ppocr/ocr2/filter_by_lines.cpp"]}
{"id": "C105", "title": "A dictionary changes words only", "statement": "Whether a line can be read, how many letters it has and how many of them are not recognised does not depend on the dictionary given to ocr2_extract_text, and neither do the first two results of extract_text6 (and of extract_text8, for glyphs of the same features). Two dictionaries change the text only in words: each of these is printed as the first candidates of its letters or as a word of the dictionary in use that some candidates spell (of the last one only the first character). Words with a character that no glyph stands for, the order of the words and repetitions change nothing.", "quantifier": "every set of glyphs with their features, every pair of dictionaries, every table of positions, every std::sort, every line", "why_tests_cant": "a relation between runs with all pairs of dictionaries; a test has one dictionary", "anchors": ["main/ocr2_extract_text.cpp:62-197", "src/ppocr/ocr2/disambiguous_with_dict.cpp", "src/ppocr/spell/word_disambiguouser.hpp", "main/extract_text6.cpp", "main/extract_text8.cpp"]}
{"id": "C106", "title": "The order of learning does not matter to extract_text6", "statement": "What extract_text6 prints (all three results) depends on which pictures were learnt with which words, not on their order, their fonts or their positions in the line: with the same pictures and words in another order, and the features the tool computes for them, a line is read the same, with every dictionary, as long as none of its letters may run into the division by zero of C85.", "quantifier": "every set of glyphs, every order of them, every dictionary, every line, every std::sort that goes by its comparisons", "why_tests_cant": "a relation between all orders of all sets of glyphs; the program sorts, groups and removes doubles by words before it compares, and a test has one file", "anchors": ["main/extract_text6.cpp"]}
{"id": "C107", "title": "Learning more does not disturb extract_text6", "statement": "Learning further glyphs none of which is near to a letter of the line does not change what extract_text6 prints for it. FALSE of the code as it stands: the first of two glyphs with the same word is also measured by the zones of the other, so that a bar learnt as `a` makes the program reject a block it read as `a` before. It is so for further glyphs whose first word is that of no glyph known before, and whatever is learnt, a letter that is an exact match of a glyph known before (all its features, C86) keeps the words of that glyph among its candidates.", "quantifier": "every set of glyphs, every set of further glyphs, every order, every dictionary, every line, every std::sort that goes by its comparisons", "why_tests_cant": "a relation between runs with all sets of glyphs; the failure needs two unlike pictures of one word", "anchors": ["main/extract_text6.cpp"]}
{"id": "C108", "title": "extract_text6 and std::sort", "statement": "For the same files extract_text6 prints the same three results, whatever std::sort does with equivalent elements. FALSE of the code: of two glyphs that look alike the word printed is the one that std::sort leaves in front. Exactly: the first result is the same with every conforming std::sort if and only if, for each letter, all its best glyphs (those that match, or if none does those that are near) have the same first word; then the second result is the same too; and if they have the same words, so is the text, also when the glyphs are learnt in another order.", "quantifier": "every set of glyphs, every two conforming std::sort, every dictionary, every line without a letter that may divide by zero", "why_tests_cant": "all sort implementations: a test runs with the one of its standard library", "anchors": ["main/extract_text6.cpp:172-219", "main/extract_text6.cpp:569-700"]}
{"id": "C109", "title": "The order of the lessons", "statement": "When lines are learnt with write_glyphs and write_datas and another line is then read, the answer does not depend on the order in which the lines were learnt. For extract_text6 this is so, with every dictionary, for lines without a letter that may divide by zero (C85); it does not even matter how the letters were spread over the lines and which fonts were given. FALSE for ocr2_extract_text: a letter that was shown with two words is read as one or the other, depending on which line came first. There the order does not matter for lines whose letters look only like letters shown with one word.", "quantifier": "every course of lessons, every order of them, every line, every dictionary, every std::sort (for extract_text6: that goes by its comparisons)", "why_tests_cant": "a relation between all orders of all lessons; a test has one glyph file", "anchors": ["main/write_glyphs.cpp", "main/write_datas.cpp", "main/extract_text6.cpp", "main/ocr2_extract_text.cpp"]}
{"id": "C110", "title": "Learning the same lines again", "statement": "Learning a line a second time changes nothing about what is read. FALSE of both programs. extract_text6 keeps a letter that is only near to a learnt one if no other glyph has its word, so that learning it twice makes it compare the zones and lose the letter; from then on it makes no difference how often a picture is learnt with its words, and it never does on lines all of whose letters match a learnt picture. ocr2_extract_text may choose the other of two words a picture was shown with; lines whose letters look only like letters shown with one word are read the same, however often and from which lines they were learnt.", "quantifier": "every course of lessons, every number of repetitions, every line, every dictionary, every std::sort (for extract_text6: that goes by its comparisons)", "why_tests_cant": "a relation between all learning sessions and their repetitions; a test has one glyph file", "anchors": ["main/write_glyphs.cpp", "main/write_datas.cpp", "main/extract_text6.cpp", "main/ocr2_extract_text.cpp"]}
{"id": "C111", "title": "The format of a drawing in black and white", "statement": "A drawing in black and white gives the same picture, and so the same text and the same glyphs, whatever netpbm format it is saved in (P1, P4 or P6, with comments or without, with any greatest value), and with every luminance from 1 to 255. FALSE of the code: the text format is always refused, and the greatest value of a P6 file is not looked at, so that white with the greatest value 1 is read as black. It holds for P4 files (of at least nine bytes) and P6 files with the greatest value 255; for other greatest values the drawing is either read as it is or as empty, depending on the brightness of that value taken as a byte.", "quantifier": "every drawing, every width and height, every header with comments, every threshold, every sequence of partial reads", "why_tests_cant": "all drawings in all formats: a test has a few files", "anchors": ["src/ppocr/image/image_from_file.cpp:119-299"]}
{"id": "C112", "title": "Any dictionary file", "statement": "Whatever dictionary file the programs accept, also one that was damaged or written by hand, the search for words does not read outside the dictionary and ends; the dictionary can only choose among the words that the candidates of the letters spell, so that the number of letters, the number of letters not recognised, and whether the line is read at all do not depend on it. FALSE of the code: the loader does not check the positions of the nodes, so that the file `97 5 0 1` makes every search read outside. It holds for every dictionary whose nodes do not lead out of it, sorted or not, with circles or without; the dictionaries made by make_trie_dictionary are such.", "quantifier": "every dictionary file, every table of candidates, every line picture, every set of glyphs and features", "why_tests_cant": "dictionaries that no tool would make: a test has dictionaries made by the tool", "anchors": ["src/ppocr/spell/dictionary.cpp:71-100", "src/ppocr/spell/word_disambiguouser.hpp:32-95"]}
{"id": "C113", "title": "Any features file", "statement": "Whatever features file ocr2_extract_text accepts, also one that was damaged, comes from other glyphs or was written by hand, a line that is read with one of them is read with the other, with as many letters. FALSE of the code: a file that ends early is accepted, and the values that are missing are read from outside the tables; and a percentage near 2^32 makes the sum with that of the letter wrap, so that the program divides by zero or fails an assertion. It holds for every file that has all values and no percentage from 2^32 - 100 on, whatever the values: with letters of at most 50 points of width and height together and no table of words, whether a line is read depends on its picture only.", "quantifier": "every features file, every glyph file with words in UTF-8, every dictionary file whose nodes stay inside, every line picture", "why_tests_cant": "features that no picture has: a test has features computed from glyphs", "anchors": ["src/ppocr/defined_loader.hpp:199-265", "src/ppocr/strategies/proportionality_zone.cpp:62-76", "src/ppocr/ocr2/compute_image.hpp:58-170", "main/ocr2_extract_text.cpp:62-197"]}
{"id": "C114", "title": "Any glyph file", "statement": "Whatever text ocr2_extract_text accepts as a glyph file, also one that was damaged or written by hand, a line that is read with one of them is read with another that has as many glyphs, with as many letters. FALSE of the code: a glyph without views is accepted and then a table is read outside. Loading itself ends on every text, without a failed assertion, and it is undefined exactly when the file asks for views and has no word, or when the greatest of its words has 4, 8, ... bytes; every word of a view is a piece of the file, although a view that is missing at the end of the file gets the word that was read first. If the text is in UTF-8, no word has 4, 8, ... bytes and each glyph has a view, then the program reads the line, as C113 says for any features file and C112 for any dictionary, and the text is put together from pieces of the glyph file.", "quantifier": "every text of less than 4 GiB as a glyph file, every features file that is whole, every dictionary file whose nodes stay inside, every line picture", "why_tests_cant": "texts that no tool writes: numbers without views, words without a font, missing line ends, bytes that are not UTF-8", "anchors": ["src/ppocr/ocr2/glyphs.cpp:29-95", "src/ppocr/ocr2/glyphs.hpp:43-90", "main/ocr2_extract_text.cpp:62-197"]}
{"id": "C115", "title": "Any table of words", "statement": "Whatever text without NUL ocr2_extract_text accepts as the table of the positions of words, a line that is read without the table is read with it, with as many letters. FALSE of the code: a word of the table of 5 to 8 bytes may be compared with memory behind the words of the glyphs. For any glyph file without words of 4, 8, ... bytes and any such text: either the text is refused; or the program reads outside, exactly when for an entry with a word s of at most 8 bytes some word of the glyphs w is such that all words before w are less than s and fewer bytes than s has are left behind the size of w; or the table has, for each entry with a word of at most 8 bytes that a word of the glyphs begins with, the positions of the entry for the least such word, and nothing else, and the line is read as C114 says.", "quantifier": "every text as a table of words, every text of less than 4 GiB as a glyph file, every features file that is whole, every dictionary file whose nodes stay inside, every line picture", "why_tests_cant": "whether the comparison leaves the memory depends on all words of the glyphs and on their order, and it is seldom noticed when it does", "anchors": ["src/ppocr/ocr2/words_infos.hpp", "src/ppocr/ocr2/glyphs.hpp:43-90", "src/ppocr/ocr2/word_lines.cpp", "main/ocr2_extract_text.cpp:62-197"]}
{"id": "C116", "title": "Any features file for extract_text6", "statement": "A line that extract_text6 reads with one features file is read with any other features file that it accepts and that has as many entries. FALSE of the code: a glyph whose value for the strategy that makes the categories is 210 or more makes the program write outside of its table. For any glyph file, dictionary file and features file that are accepted: with another number of entries than glyphs the program stops with an error; if the values of some strategy are missing, or a value for the categories is 210 or more, or a glyph has no word, the behaviour is undefined whatever the picture is; otherwise, with percentages that can be added in 32 bits, words in UTF-8 and a dictionary whose nodes stay inside, any line is read, each letter as words of the glyphs or as `_`, or there is a division by zero, which needs a letter with a percentage 0 and a glyph with one.", "quantifier": "every features file, every glyph file of less than 2^32 - 63 glyphs, every dictionary file whose nodes stay inside, every line picture, every sort that the standard allows", "why_tests_cant": "the tests have no features file but those the tools write, and a write outside of a table of 21 counters mostly goes unnoticed", "anchors": ["main/extract_text6.cpp:732-882", "main/extract_text6.cpp:568-688", "src/ppocr/loader2/datas_loader.hpp", "src/ppocr/strategies/proportionality_zone.cpp"]}
{"id": "C117", "title": "Any features file for extract_text8", "statement": "A line that extract_text8 reads with one features file is read with any other features file that it accepts and that has as many entries. FALSE of the code: with two glyphs, one value that differs between them is enough for undefined behaviour. For any glyph file, dictionary file and features file that are accepted: with another number of entries than glyphs the program stops with an error; with two glyphs or more the behaviour is undefined whatever the picture is if the values of some strategy are missing, or if the number of glyphs whose features are not those of the first in the order is neither 0 nor 2; if all glyphs have the same features and each has a word, with percentages that can be added in 32 bits, words in UTF-8 and a dictionary whose nodes stay inside, any line is read, whatever the other values are, each letter as words of the glyphs or as `_`, or there is a division by zero, which needs a letter with a percentage 0 and a glyph with one.", "quantifier": "every features file, every glyph file of less than 2^32 glyphs, every dictionary file whose nodes stay inside, every line picture, every sort that the standard allows, every content of a string that was moved from, every lawful double", "why_tests_cant": "the tests have no features file but those the tools write, and the undefined behaviour comes from a sort whose order is not fixed", "anchors": ["main/extract_text8.cpp:581-784", "main/extract_text8.cpp:376-519", "src/ppocr/loader2/datas_loader.hpp"]}
{"id": "C118", "title": "Words added to a dictionary", "statement": "When words are added to the dictionary, the programs read as many letters as before and print the same text but for some words, each of which becomes an added word that candidates of its letters spell, and no candidates preferred to these spell a word of the dictionary; no word that was found in the dictionary is replaced by one that is not in it. Added words that the words of the glyphs cannot spell change nothing. With two dictionaries together each word of the line is printed as with one of them.", "quantifier": "every set of glyphs with their features, every pair of dictionaries, every table of positions, every line, every std::sort", "why_tests_cant": "the tests use dictionaries of a few words and never compare the results of two of them", "anchors": ["src/ppocr/spell/word_disambiguouser.hpp", "src/ppocr/ocr2/disambiguous_with_dict.cpp", "main/extract_text6.cpp:832-872"]}
{"id": "C119", "title": "Features of a picture scanned larger", "statement": "When a picture is blown up k times, each cell becoming a square of k by k cells, the proportionality, the density, the bars (both ways), the zones and the proportions of the zones stay the same. These are exactly the columns that never change: each of the other 19 changes for some picture. The direction features also stay the same for an even number of rows (turned: columns), and the alternations when both sides are multiples of three.", "quantifier": "every picture of a size for which the features are defined, every factor k for which the larger picture is still of such a size", "why_tests_cant": "the tests have one picture per feature at one size; they never compare two sizes of a picture", "anchors": ["src/ppocr/strategies/density.cpp", "src/ppocr/strategies/proportionality.cpp", "src/ppocr/strategies/hbar.cpp", "src/ppocr/strategies/zone.cpp", "src/ppocr/strategies/proportionality_zone.cpp", "src/ppocr/strategies/alternations.hpp", "src/ppocr/strategies/hdirection.cpp"]}
{"id": "C120", "title": "The letters of a line scanned larger", "statement": "When a line is blown up k times (k at least two), the boxes found in it are the boxes of the line blown up k times exactly when the line has two rows or more and its last column is blank. The letter cut out at each such box is then the letter of the line blown up, and its proportionality, density, bars, zones and proportions of zones are those of the letter of the line. The text may still differ.", "quantifier": "every line, every factor k for which the picture stays below 2^32 pixels", "why_tests_cant": "the tests cut one line at one size", "anchors": ["src/ppocr/box_char/make_box_character.cpp", "main/ocr2_extract_text.cpp: main", "src/ppocr/image/image.cpp"]}
{"id": "C121", "title": "Whatever the files hold, the programs end", "statement": "No content of its files makes ocr2_extract_text, extract_text6, extract_text8, write_glyphs, show_glyphs, box, write_datas, normalize_glyphs or make_trie_dictionary run for ever. Each comes to an end: with an answer, an exception, a failed assert or undefined behaviour. In particular pictures too large for the features, a dictionary whose nodes refer to each other in a circle, candidates that are not UTF-8 and files cut off anywhere are read and searched in finitely many steps.", "quantifier": "every content of the files, every command line of write_glyphs, show_glyphs and box, every std::sort, any arithmetic of double; a picture that can be read has less than 2^31 pixels for ocr2_extract_text, and less than 2^32 with one row more for the others; for ocr2_extract_text the file of glyphs is below 4 GiB, and for write_datas no two numbers in it that could be read as width and height have a product of 2^32 or more", "why_tests_cant": "a test that does not end tells nothing, and only finitely many files can be tried", "anchors": ["main/ocr2_extract_text.cpp: main", "main/extract_text6.cpp: main", "main/extract_text8.cpp: main", "main/write_glyphs.cpp: main", "src/ppocr/spell/dictionary.cpp", "src/ppocr/spell/word_disambiguouser.hpp", "main/show_glyphs.cpp: main", "main/box.cpp: main", "main/write_datas.cpp: main", "main/normalize_glyphs.cpp: main"]}
{"id": "C122", "title": "The compiled dictionary is a canonical form of the set of words", "statement": "make_trie_dictionary writes the same bytes for two word lists if, and only if, the lists have the same words. The order of the lines, words listed more than once, the way std::sort works and a missing line feed behind the last word make no difference; every other difference is seen. The file has one line for each different beginning of a word. Adding words never takes a line away, adds none if and only if the new words are beginnings of old ones, and leaves the file as it is if and only if they were listed already.", "quantifier": "all pairs of files with non-empty lines of valid UTF-8, of fewer than 2^32 letters together, and all pairs of std::sorts", "why_tests_cant": "two different word lists with the same compiled file would have to be found among infinitely many; a test compares a few", "anchors": ["main/make_trie_dictionary.cpp: main", "src/ppocr/container/trie.hpp: trie::insert_after", "src/ppocr/container/trie.hpp: flat_trie", "src/ppocr/spell/dictionary.cpp: operator<<"]}
{"id": "C123", "title": "Only the side of the threshold counts", "statement": "Two colour files (P6) are read as the same picture if, and only if, they have the same size and every place reaches the luminance in both or in neither; then ocr2_extract_text, extract_text6 and extract_text8 print the same, and write_glyphs and show_glyphs too. So noise of at most d in every colour changes nothing if no brightness lies within d + 2 of the threshold (the 2 is needed because each colour is rounded on its own). A grey reaches the programs' luminance 128 exactly from the value 128 on; with other luminances it can be off by one, never more.", "quantifier": "every pair of whole P6 files, every pair of luminances, every noise, every value of grey", "why_tests_cant": "all pictures and all their noisy copies: a test has a few files", "anchors": ["src/ppocr/image/image_from_file.cpp: image_from_file", "src/ppocr/image/image_from_file.cpp:234-236", "main/ocr2_extract_text.cpp: main", "main/write_glyphs.cpp: main"]}
{"id": "C124", "title": "Letters in a mirror and upside down", "statement": "A letter and the letter turned by 180 degrees (b and q, u and n, 6 and 9) have six of the 25 columns in common: the proportions, the density, the bars both ways and the densities of the diagonal bands. A letter and its mirror image (b and d, p and q) have twelve in common: the proportions, the density, the bars both ways and the eight that compare above and below. These are exactly the columns that never tell the two apart: each of the others does for some letter. The half turn exchanges what the directions and gravities measure above and below the middle, the mirror what they measure left and right. The zones change as one expects: the half turn exchanges the openings at the top and at the bottom and those at the right and at the left, the mirror only the latter; the closed counters stay.", "quantifier": "every picture of a size for which the features are defined", "why_tests_cant": "the tests have one picture per feature and never compare a picture with its mirror image", "anchors": ["src/ppocr/strategies/density.cpp", "src/ppocr/strategies/proportionality.cpp", "src/ppocr/strategies/hbar.cpp", "src/ppocr/strategies/dzdensity.cpp", "src/ppocr/strategies/hdirection.cpp", "src/ppocr/strategies/hgravity.cpp", "src/ppocr/strategies/dvdirection.cpp", "src/ppocr/strategies/dvgravity.cpp", "src/ppocr/strategies/zone.cpp"]}
{"id": "C125", "title": "Normalising in parts", "statement": "Glyph files that are normalised one by one, and the results normalised together, give byte for byte the file that normalising them all at once gives. So the glyphs of a new font can be added to a file that is already normalised, and the raw files, which the script learning removes, need not be kept: the normalised Latin and Cyrillic glyphs it leaves, normalised together, are the file it makes of both. This holds when the views of each glyph are in increasing order without repetition, in particular for what write_glyphs writes, where a glyph has one view; for other files only the images and the set of views of each are the same, not the bytes, since the views of a glyph with an image of its own are sorted only if a smaller image was merged in the same run.", "quantifier": "every list of glyph files written from well-formed glyphs with ordered views, at most 2^32-1 views per file; any conforming std::sort, not the same in each run", "why_tests_cant": "all ways to share images between all files", "anchors": ["main/normalize_glyphs.cpp: main", "src/ppocr/loader2/glyphs_loader.hpp", "learning"]}
{"id": "C126", "title": "Pictures given together or one after the other", "statement": "write_glyphs, show_glyphs and box treat the pictures on their command line independently of each other: a run on several of them gives to std::cout, byte for byte, what runs on the first of them and on the rest joined by && in the shell give to it, with the same -l option, and it ends in the same way. In particular the glyphs learnt by many small runs of write_glyphs, put one behind the other, are those of one long run, so the loops of the script learning, with one run for each picture, could be one run as long as no picture is refused; and the first picture that cannot be used ends everything, nothing is given out for those behind it. The only difference is the line that box prints about its option, once per run. (What is given to std::cout before an uncaught exception or a failed assertion may stay in its buffer; the long run then loses more of it.)", "quantifier": "every content of every file, readable or not, every list of names, every text behind -l, accepted or not; without -l only names other than -l at the start of either run", "why_tests_cant": "all files, all lists of names and all ways to share them out", "anchors": ["main/write_glyphs.cpp: main", "main/show_glyphs.cpp: main", "main/box.cpp: main", "learning"]}
{"id": "C127", "title": "Comparing boxes", "statement": "Two boxes compare equal with == exactly when they have the same place and the same size; so the boxes of two letters of one line are never equal, and no box of a letter is equal to an empty box, which marks the end of the line.", "quantifier": "all boxes; all images of at most 2^32 pixels, counting one more row, and their letters", "why_tests_cant": "all pairs of boxes and all images", "anchors": ["src/ppocr/box_char/box.hpp: Box::operator==", "src/ppocr/box_char/make_box_character.cpp: make_box_character"]}
