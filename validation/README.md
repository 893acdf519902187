# Runs of the model on the data shipped with the project

The repository ships inputs and outputs of its own programs: pictures of fonts (`resources/fonts`), the glyphs that `write_glyphs` and
`normalize_glyphs` made of them (`resources/glyphs`), and the features that `write_datas` made of the glyphs (`resources/datas`). The
files here run the definitions of the model on the inputs, to compare the result with the outputs. They are tests of the reading of the
code, not proofs, and are not part of the Lake project. Run them in `/verif/lean`, e.g.

    lake env lean --run ../validation/write_datas.lean.txt /repo/resources/glyphs/normalized-glyphs-latin.txt /tmp/datas.txt
    cmp /tmp/datas.txt /repo/resources/datas/latin.txt

| file | run | result |
|---|---|---|
| `write_datas.lean.txt` | `writeDatas` on all 5465 glyphs of `normalized-glyphs-latin.txt` | the 669250 bytes of `datas/latin.txt`, identical |
| `write_glyphs.lean.txt` | `writeGlyphs` on the 78 pictures of `fonts/latin/mano` (binary bitmaps) | the 1025 pairs of a picture and a view that the shipped file has for these fonts |
| `normalize_glyphs.lean.txt` | `normalizeMain` on the output of the run before | the shipped file, restricted to these fonts: the same 977 glyphs in the same order |
| `write_glyphs.lean.txt` | `writeGlyphs` on the 1148 pictures of `fonts/latin/generated` (574 fonts) | the 94341 pairs of a picture and a view that the shipped file has for these fonts |
| `normalize_glyphs.lean.txt` | `normalizeMain` on the glyphs of all these pictures, in 212 parts | the parts one after the other are the whole of `normalized-glyphs-latin.txt`, identical byte for byte |
| `write_glyphs.lean.txt`, `merge.py`, `write_datas.lean.txt` | `writeGlyphs` on the 1385 pictures of `fonts/cyrillic`, the glyphs merged by picture (9808), `writeDatas` on them | the 1205966 bytes of `datas/cyrillic.txt`, identical |
| `merge.py`, `write_datas.lean.txt` | these glyphs merged with the Latin ones (12712), `writeDatas` on them | the 1559818 bytes of `datas/latin-cyrillic.txt`, identical |
| `boxes.lean.txt` | `makeBox` on `tests/images/computer.pnm` | the characters of `tests/test_make_box_character.cpp` |

`write_glyphs.lean.txt` takes a file with one line for each picture (picture, text and font, with tabs between), and the file to write;
`compare.py` compares the glyphs with the shipped ones. The unit tests of the project are replayed in `lean/Verif/Tests/Project.lean`.

The sort of the model takes quadratic time, so `split.py` divides the glyphs into parts before they are normalised. Each part has all
glyphs of an interval of pictures (in the order of `image_compare`), so that the normalised parts are intervals of the normalised whole.

All 5465 shipped Latin glyphs are within the sizes the theorems ask for (`Sized`): they have at most 22 by 17 pixels and 225 pixels in
all, and 25·w·h·(w+h+2) is at most 180000.

The Cyrillic glyphs are not shipped, only their features. So for these the glyphs are merged by `merge.py` (one entry per picture, in the
order of the shipped Latin glyphs) and not by `normalizeMain`, and what is compared are the features. All 12712 glyphs are within the
sizes the theorems ask for as well: at most 43 by 51 pixels, 1216 pixels in all, and 25·w·h·(w+h+2) is at most 2188800.
