# Formal model of rich-text: design and trusted base

The model is a set of Lean 4 modules under `lean/Verif`.  The C++ in `/repo` is
never executed; every definition of the model cites the file and lines it was
transcribed from.

## Layout of the Lean project

| Directory | Content |
|---|---|
| `Verif/Model/*` | transcription of the C++ functions, one definition per function where possible |
| `Verif/Spec/*`  | small, independent specifications (what a user expects), not using the model's helpers |
| `Verif/Proof/*` | helper lemmas, invariants, refinement relations |
| `Verif/Props/*` | the property theorems, each followed by a concrete non-trivial instance |

A theorem name starts with the property id, e.g. `C01_get_value`.  A theorem with
suffix `_partial` covers only part of the English property; what is missing is
said in its doc comment and in MANIFEST.json.  A theorem with `_violated` in its
name is a proof that the code does *not* satisfy the property (a
concrete input evaluated by the kernel, or a whole class of inputs), see "Findings".

Other files: `properties.jsonl` (the properties), `MANIFEST.json` (property →
theorems, written by `tools/mkmanifest.py` from the sources and `tools/notes.json`),
`AXIOMS.md` (axioms per theorem, written by `tools/mkaxioms.py`),
`seeded/LOG.jsonl` (wrong programs the theorems were tested against).

## Trusted base

* Lean 4.33.0's kernel, and the axioms `propext`, `Classical.choice`,
  `Quot.sound` (standard Lean/Mathlib).  No axiom is added, no `sorry`, no
  `native_decide`, no `bv_decide`.  `AXIOMS.md` lists the axioms of every property
  theorem as Lean prints them.
* The transcription of the C++ into Lean definitions (by hand; the cited lines
  are next to each definition).
* The conventions below.
* The hypotheses of the theorems about third-party code (see "Contracts").

### Conventions of the model

* `int32_t`, `uint32_t`, `size_t` values that only count or index are modelled
  by `Nat`/`Int` (no wrap-around) unless the width matters (packed bit fields,
  the script iterator's mixed signed/unsigned macros, `uint32` differences in
  glyph offsets, pixel arithmetic), where `BitVec` or explicit modular arithmetic is
  used.  Text lengths are therefore assumed to be below 2^31.
* An out-of-range `std::vector`/array access, an empty `back()`, a division by
  zero, a use of a destroyed object is an explicit outcome (`none` of `Option`, or an
  explicit fault flag).  Where a loop might not end, the function takes a bound on the
  number of steps and `none` is also the outcome of taking more; the theorems say that
  some bound suffices, and that any larger bound gives the same result.
* `float` is modelled by exact rationals (`Rat`) in the layout and in rectangles.  For
  the layout, `Model/RoundedLayout.lean` has the same functions with the result of each
  operation rounded to binary32 (`f32Round`: to nearest, ties to even, gradual
  underflow, no overflow; no excess precision, no fused multiply-add), and C93 to C95 say
  how far they can be apart; rectangles are not covered.  In font sizes and colours
  binary32 rounding is modelled exactly (`F32`).  Coordinates of UI objects are of any type with an addition,
  so rounding does not matter there.  26.6 fixed-point numbers are integers (their range: C104), as in the
  code.
* Memory allocation failure, stack exhaustion by deep recursion and exceptions
  of the standard library are not modelled (except where an exception is the point,
  e.g. a thrown `out_of_range` is `none`).
* `std::unordered_map` is an association list; the order of its elements is never used.
* Asserts are not evaluated (release build).

### Contracts of third-party code

Third-party behaviour enters as function parameters.  What a theorem assumes about a
parameter is a hypothesis of that theorem:

| Library | Assumed | Where |
|---|---|---|
| ICU break iterators | `following`/`preceding`/`isBoundary` agree with one sorted set of boundaries that contains 0 and the length | `Breaks` (Spec/CursorController), line breaks in Spec/LineBreak |
| ICU `U8_FWD_1` | moves forward and stays in the text | `ScriptText.Forward` (C36) |
| ICU properties | any functions | script, white space, case |
| SheenBidi | paragraphs cover the text; runs of a line partition it | C30-C32 |
| HarfBuzz | clusters are characters of the text shaped, monotone in the direction | `Shaping` (Spec/VisualRuns) |
| HarfBuzz (C72 only) | clusters start at line breaks and direction changes; no glyph starts before the one in front of it | `ParaEnv.Clusters`, `ParaEnv.Forward` (Spec/Built) |
| ICU `CaseMap::utf8ToUpper` | records one edit per changed character, unchanged characters may share one | `Records` (Spec/SmallCaps, C74) |
| FreeType, files | any functions of the arguments | `FontLib` (C44-C49), `Raster` (C67) |
| FreeType, metrics of a size | the formulas of `FT_Request_Metrics` for scalable faces, grid-fitted metrics | `FaceUnits.request` (C106-C108) |
| OpenGL, state | bindings of unit 0, vertex array and program, uniforms belong to programs and keep their values; draw calls use what is set | `GLContext` (C109) |
| OpenGL, rasterisation and sampling | centres of pixels inside triangles, shared edges drawn once by some rule, linear interpolation, `GL_LINEAR` | `tie`, `FairTie`, `covers`, `sampleLinear` (C110, C111) |
| OpenGL, deletion | shaders go when deleted and detached, programs when deleted and not in use; names are given once | `GLObjects` (C112) |
| msdfgen | bounds are any function of the shape | `MsdfEnv` (C85-C87) |
| HarfBuzz `hb_cache_t` | returns what was stored or nothing | `AdvCache.Sound` (Spec/HarfbuzzFont, C79) |
| simdjson | a document is a tree or malformed; names in an object are distinct | Model/FamilyJson (C84) |
| `std::shared_mutex` | readers exclude writers; for the deadlock: a waiting writer blocks new readers | C49, C119 |
| GLFW | delivers any sequence of events (C78: of characters) | C52-C54, C58, C69-C71, C78 |
| ICU, HarfBuzz (C78 only) | graphemes, runs and clusters consist of whole characters | `BoxEnv.Whole` (Spec/Characters) |
| ICU, SheenBidi, HarfBuzz together (C89) | those of C32 and C72 for every text, at most `k` glyphs per byte | `App.Contract` (Spec/App) |
| SheenBidi, ICU, HarfBuzz, registry, function by function (C91) | paragraphs, a level per byte, stepping through UTF-8, shaping of any calls | `TextLibs.Contract` (Spec/TextRuns) |

## What is modelled

| Code | Model | Properties |
|---|---|---|
| `value_runs.hpp`, `value_run_utils.hpp`, `value_runs_iterator.hpp`, `value_run_builder.hpp`, `binary_search.hpp` | `ValueRuns`, `BinarySearch` | C01-C06 |
| `formatting.cpp` (whole parser) | `Formatting` | C07-C12, C77, C138, C139 |
| `formatting_iterator.cpp`, `text_draw_util.hpp` | `Draw` | C13-C16 |
| `cursor_position.hpp`, `font.hpp`, `font_common.hpp` | `Handles`, `Font`, `FontSize` | C17, C18, C34, C63 |
| `layout_info.hpp/.cpp` | `LayoutInfo` | C19-C27, C59, C60 |
| `layout_builder.cpp` | `LayoutBuilder`, `SmallCaps`, `TextRuns`, `LineSteps` | C28-C35, C72-C74, C88, C90, C91, C129, C131, C135, C137 |
| `file_mapping.cpp` | `FileMapping` | C92 |
| `layout_info.cpp`, `layout_builder.cpp` in `float` | `Rounding`, `RoundedLayout` | C93-C95 |
| `script_run_iterator.cpp` | `ScriptRun` | C36-C39, C61, C62 |
| `font_registry.cpp`, size caching of `font_data.cpp` | `FontRegistry` | C40-C49 |
| `harfbuzz_font.cpp` (scale, advances) | `HarfbuzzFont` | C79, C80 |
| `font_data.cpp` (synthetic styles) | `Synthetic` | C81-C83 |
| `font_registry_json.cpp` | `FamilyJson` | C84 |
| `cursor_controller.cpp` | `CursorController` | C50, C51 |
| `color.hpp`, pixels of `text_atlas.cpp` | `Color` | C66 |
| `sample/text_box.cpp` | `TextBox`, `App` (with parser and builder) | C52-C54, C64, C65, C78, C89, C134, C136, C140 |
| `sample/text_atlas.cpp` | `TextAtlas` | C55, C67 |
| `sample/msdf_text_atlas.cpp` | `MsdfAtlas` (packing: `TextAtlas`) | C55, C85-C87 |
| `sample/ui_object.cpp` | `UIObject` | C56, C68 |
| `sample/ui_container.cpp` (rectangles, focus, clicks, mouse) | `UIContainer` | C57, C58, C69-C71 |
| `sample/text_box.cpp` (18-58) with `sample/ui_container.cpp` (370-384): presses and the clicks counted | `Clicks` | C151 |
| `sample/ui_container.cpp` (`draw_text`) | `DrawSelection` | C98 |
| `harfbuzz_font.cpp` (life time; glyphs, names, extents), owners in `font_registry.cpp` | `HbLifetime`, `HbCallbacks` | C100, C101 |
| `test/build_layout_info_utf8.cpp` (85-273, 400-636) | `RefBuilder` | C102 |
| Owners and life times in `cursor_controller.cpp`, `layout_builder.cpp`, `font_registry.cpp`, `text_box.cpp` | `Lifetimes` | C103 |
| Range of the integers in `layout_builder.cpp` | `Overflow` | C104 |
| `font_data.cpp`, `font_data.hpp` (objects of FreeType) | `Strokes` | C105 |
| `font_data.cpp` (metrics), `font_registry.cpp` (size request), `font_common.hpp`, `font.hpp` (baseline offset) | `FaceMetrics` | C106, C107, C108 |
| `sample/ui_container.cpp` (draw_rect_internal), `sample/pipeline.cpp`, `sample/image.cpp` (binding), pages of the atlases | `GLDraw` | C109 |
| `sample/rect_shader.hpp`, `sample/msdf_shader.hpp`, rasterisation and sampling of OpenGL | `Shader` | C110, C111 |
| `sample/pipeline.cpp` (compilation, ownership), `sample/image.cpp` (ownership), order of `sample/main.cpp:73-125` | `GLObjects` | C112 |
| `sample/main.cpp` (sizes, pointer) | `SampleWindow` | C113 |
| `sample/text_box.cpp` (update, caret) | `TextBox` | C114 |
| `test/utf_conversion_util.hpp`, `test/convert_layout_info_utf8.cpp` | `UtfConversion` | C115 |
| `file_read_bytes.hpp`, `font_registry_json.cpp` (27-36) | `FileRead` | C116 |
| all stages from markup to drawing (composition of the above) | `Formatting`, `TextRuns`, `LayoutBuilder`, `LayoutInfo`, `Draw` | C117 |
| `layout_builder.cpp` (377-427, 688-699: buffer and features for HarfBuzz) | `ShapeRequest` | C118 |
| `font_registry.cpp` (mutex and accesses to the globals, in several threads) | `Concurrent` | C119 |
| `layout_builder.cpp` (258-283, 377-490) with `font_registry.cpp` (`get_sub_font`, `get_font_data`) | `ParagraphFonts` | C120 |
| `test/build_layout_info_utf8.cpp` (106-190, 275-323) | `RefRuns` | C121 |
| `layout_builder.cpp` (159-575) with `font_registry.cpp` and `font_data.cpp` | `BuildText` | C122 |
| `sample/text_box.cpp` (64-469) over `layout_builder.cpp` and `font_registry.cpp` | `BoxThread` | C123 |
| `sample/text_box.cpp` (`m_formatting`, `render`) | `Render` | C141, C142 |
| `layout_info.hpp` (227-243) | `EachGlyph` | C124 |
| `test/build_layout_info_icu.cpp` (90-257, 313-546) | `IcuBuilder` | C125 |
| `harfbuzz_font.cpp` (409-460, 601-638) | `HbExtents` | C126 |
| `sample/ui_container.cpp` (195-237) | `DebugDraw` | C127 |
| rendering in `sample/tool_bar.cpp`, `sample/tool_bar_menu.cpp`, `sample/tool_bar_menu_item.cpp`, `sample/frame.cpp` | `DrawBar` | C128 |
| `test/build_layout_info_lx.cpp` (75-81, 132-281) | `LxBuilder` | C130 |
| `harfbuzz_font.cpp` (222-247), `test/build_layout_info_lx.cpp` (28-39) | `FontTables` | C132 |
| `test/build_layout_info_lx.cpp` (94-124, 132-190, 274) | `LxFonts` | C133 |
| `sample/tool_bar.cpp`, `sample/tool_bar_menu.cpp`, `sample/tool_bar_menu_item.cpp`, event delivery and sizes of `sample/main.cpp` | `ToolBar` | C96, C97 |
| `sample/bitmap.cpp` | `Bitmap` | C75, C76 |

### Methods

| Id | Method |
|---|---|
| C01-C06 | loop invariants; result is the least index with limit > i; simulation of packed by generic runs; refinement of the builder to a styled character list |
| C07-C12 | fuel-indexed recursive descent over the byte list; the fuel is shown to suffice; soundness and completeness against an inductive grammar; fault flag for buffer overruns |
| C13-C16 | iterator as a function of the index, event machine as list fold |
| C17, C18 | bit-vector extensionality |
| C19-C27, C59, C60 | `Stores`: refinement from vectors to a list of lines of runs of glyphs, by induction on append operations; binary search specifications; rational arithmetic |
| C28-C34 | line breaking by an invariant over iterations (`Iteration`, `Processed`, `Fitted`), visual runs by `Partition`, shaping by `Grouped` |
| C72 | composition of C28-C32 with C23, C26, C60: the hypotheses of the queries are shown for every layout the builder makes; this also discharges `BoxEnv.Good.layout` of the text box |
| C73 | telescoping sums over the shaped buffer, composed with C29-C31 |
| C74 | induction over the edits ICU records |
| C75 | pixel-wise invariant of the loops over rows and columns |
| C76 | ordered field arithmetic |
| C77 | induction over the grammar of C10, C11 |
| C78 | invariant over all inputs, on top of C23, C26, C50-C52 |
| C79, C80 | invariant over histories of requests (`HbRun`); bounds on rounding an integer to 24 bits |
| C81-C83 | case analysis on the outline operations; the nine weights are the whole domain of C82 |
| C84 | induction over the lists of the document; composed with the registry (C40-C43) |
| C85 | induction over contours and segments |
| C86 | ordered field arithmetic |
| C87 | map invariant `MsdfOK` on top of the packing of C55 |
| C88 | counting along the calls: C31 for glyphs, C32 for runs |
| C89 | composition of C07, C12, C77, C72 and C88 into `BoxEnv.Good`; then C52 |
| C90 | induction over the paragraphs with C05, C35 for each; the iterators stand at or before the start of the next paragraph (`RunsAt`) |
| C91 | composition of C90, C36, C34, C45 and C89 |
| C92 | invariant `Owned`: the resources in use are those of the mappings of the faces, those lost, and those from before |
| C93 | multiples of 1/64 below 2^18 are binary32 numbers, so no operation rounds; otherwise half an ulp per operation, by induction on the lines |
| C94 | induction on lines; rounding is monotone and exact on multiples of 1/64, so interpolation is monotone and exact at its ends |
| C95 | loop invariant of the boundary search as for C26, with rounded positions; DONE is at least as far as twice the cluster |
| C96 | invariant over the mouse events: the open menu is the one last moved over; set up by induction on the list of menus |
| C97 | induction on events over C52; invariant "dragging only while the button is down" |
| C98 | induction on the calls of `draw_text_internal` (C13-C16) with the clip range of the current run, over C25 and C57 |
| C99 | both are interpolations of the same edges (C24, C26); the found cluster has a boundary exactly at the place, so the nearest one is there |
| C100 | invariant: every cached owner has its own objects in use; reference counts |
| C101 | induction on the text; case analysis; floor and ceiling |
| C102 | simulation: both states of shaping describe the same glyphs; uniqueness of cuts of lines into runs |
| C103 | invariant: every library object not freed is held by exactly one member; induction on histories |
| C104 | refinement: the builder with every result checked against the unbounded one; bounds on each glyph times the number of looks at it, sums over disjoint glyphs |
| C105 | objects as a list up to order, functors by what they leave, induction over the requests |
| C106 | bounds on the fixed-point operations of FreeType by integer arithmetic, `f32Round` exact on whole pixels |
| C107 | linear arithmetic over the bounds of C106, errors of `f32Round` for bounded numbers |
| C108 | bound on the pixels per em, relative error of `f32Round` |
| C109 | invariant between the remembered values and the state of OpenGL, up to the texture binding that new pages change; images injective in handles |
| C110 | edge functions of the two triangles, cases by the side of the diagonal; the rule for edges as a parameter |
| C111 | factorisation of the cubic of `smoothstep`; the triangles of C110 |
| C112 | invariant between the names that owners hold and the objects of OpenGL, closed under every call; permutations for the swap in move assignment |
| C113 | induction over the resizes; the composition of the vertex shader and the viewport |
| C114 | invariant between timer, number of flashes and the time since the caret was moved; floor of twice the time |
| C115 | one step of both macros over every character by its encoding; induction over the characters, runs and lines |
| C116 | evaluation for every content; the first zero byte as the end of the text |
| C117 | composition of C10, C90, C91, C31, C72, C14 and C16: the glyphs of each stage are a permutation of those of the one before; fonts of glyphs through the merging of logical runs |
| C118 | the calls on the buffer evaluated for a paragraph split into what is before, in and behind the run; induction over the runs of a paragraph |
| C119 | simulation in two layers: steps by whole critical sections (`Sections`, `SimSections`), whole sections by calls of the sequential model (`Lin`; run equations for each function); an invariant for programs with proper arguments (`SafeState`); termination by the structure of the remaining code |
| C120 | the cache of the thread simulated by none (`getSubFont_same`, `CacheKeeps`), the functor by the environment (`shapeRun_spec`, `loop_spec`, `shape_spec`); relational induction for two threads (`Alike`) |
| C121 | run lists as functions of positions (`Part`, `computeLevels_spec`, `iterateRunIntersections_more`); both ways to ask for fonts as walks over the same text (`Walk`, `walks_agree`) |
| C122 | simulation: the thread state is carried through (`Goes`), results are those of pure libraries with one blank per face that the final cache agrees with (`Consistent`, `BlankOf`); induction over lines and paragraphs |
| C123 | the handlers with `recalc_text` as a parameter are simulated by those without a thread, for every guess of the blanks that the final thread agrees with (`Sim`, `Guessing`); induction over inputs |
| C124 | induction over the runs with the number of glyphs and positions in front (`Stores`) |
| C125 | each piece of the UTF-16 builder is, where defined, that of the earlier builder (C102); the cuts it makes are ends of clusters (`Cut`); induction over paragraphs with the layout made so far (`icuParagraphs_exec`) |
| C126 | `FT_MulFix` and `FT_DivFix` as rounded fractions (`scaled_bound`), integers below 2^24 are floats |
| C127 | pass over runs line by line (`overRuns_lines`); iterators over one run with or without a pointer behave alike (`OneRun`); C122, C98 |
| C128 | what is drawn as a function of the invariant of C96 (`C128_picture_partial`); pixels by C110 and integer arithmetic |
| C129 | the positions the code adds up are those of the specification as long as the widths behind the line are untouched (`Fitted.positions`, `breakLine_agrees`); no range that fits reaches past the first visible character behind the overflow (`LineChoice.no_fit`); induction over any other division, the line of the builder always ahead (`fewest_aux`) |
| C130 | induction over lines and paragraphs with the calls as changes of a list of lines (`lxLines_spec`, `lxParagraphs_spec`, as in C32); levels by cases on the two bits |
| C131 | one line: a later start and a wider area end no earlier (`breakLine_mono`: sums over fewer non-negative widths, tabs with `linePos_anti`, monotone `preceding`, by cases on whether the end is an opportunity or forced); then induction over the lines of the narrower area, paragraphs and calls |
| C132 | induction over the calls with the shape of the memory behind them (buffers owned by the blobs; one blob and one reference per table found); destruction in any order by induction over a list without duplicates |
| C133 | invariant (the pools own the instances in memory, each once, addresses below the next one), kept by `clear`, `reserve`, `emplace_back` within the capacity and `getSubFont`; induction over requests and paragraphs |
| C134 | invariant (`TextBox.ShowsLines`: lines, boundaries, caret where the layout has the cursor) kept by each key, with C23 and C60 for the line it leads to; induction over the keys |
| C135 | every function of the builder commutes with moving the characters (induction along each loop); what the calls append does not depend on what is there (`steps_frame`); then induction over the paragraphs in front, edited and behind |
| C136 | each input from the splices of C53 and the invariant of C52; induction over the characters typed; equality of states for the two ways to remove |
| C137 | the loops again with their indices; what one line looked at is covered by the next two or three lines (linePos is monotone in the start of the line), so the sums telescope; for the violation an induction over the lines of a family of paragraphs |
| C138 | induction over the grammar of C10 (nothing else), and tags for each of the attributes, one inside the other, with decimal and hexadecimal numerals for the numbers (all of it) |
| C139 | induction over the grammar of C10, with the source split at each shown byte; the parser by C10 |
| C140 | C139 for the source, induction over the typed characters for the box, C89 for the parts put together |
| C141 | an invariant that `recalc_text` brings about and every other statement keeps, shown once for all handlers; C14 and C72 for the frame |
| C142 | the offset of a cluster divides the sorted characters and the sorted positions at the same index; C98, C53 |
| C143 | the refinements of typing, parsing, layout and drawing composed; the document after typing is the only hypothesis |
| C144 | induction over the moves: the selection keeps its start and the cursor goes to the last place; the splices of C53 and C136 |
| C145 | C144 for the selection, C53 for Cut and Paste; the bytes by permutation |
| C146 | insertions one behind the other compose (`insert_insert`), as `recalc_text` of a text that is not empty forgets what was shown; induction over the characters |
| C147 | words as maximal stretches without white space; C51 for both directions, C60 and C23 for the line |
| C148 | both sequences reach the same state: removal, then C53 for the insertion |
| C149 | the start of a word is a stop of both searches (C51); induction over the distance |
| C150 | C147 for the selection, C53 for what is typed over it |
| C151 | Induction on the clicks: without shift a press does not depend on caret and selection before it, so the last one is a press with as many clicks counted; then C64 and C147 |
| C152 | Induction on the movements; C64 and C147 for what is selected |
| C153 | A recalculation of a text already laid out changes nothing; then typing at the cursor (C139) |
| C154 | Induction on the clicks; C144 for what is typed over a selection |
| C155 | C64 for the selection, C144 and C139 for what is typed |
| C156 | Induction on the inputs, with a lemma for each operation of the box: where bytes are written, they come from the text, the clipboard or the keyboard |
| C157 | A lemma for each operation of the box, induction on the inputs after the last Copy or Cut |
| C158 | Two executions in step by induction on the keys; C144 for what is typed over a selection |
| C159 | C52 for the states, C64 for losing and getting the focus, induction on the inputs in between |
| C160 | C52 and C64 for the caret, C158 for what is selected |
| C161 | C134 for the keys before, C23 for the ends of the line, C53 for what is removed |
| C162 | C64 for one key; induction on the number of boundaries in between |
| C35-C39, C61, C62 | state machine with invariant (`Rep`, `ListRun`, `Linked`); exhaustive interval analysis of the table lookup |
| C40-C49 | histories of registrations refined to a view by names (`Named`, `Grown`, `Stored`); cache invariants (`OwnerOK`, `CacheOK`); lock machine for any number of threads |
| C50-C54, C64, C65 | break iterator = sorted boundary list; invariants `Sound`, `Resting`, `Valid` over all histories of inputs |
| C55, C67 | packing invariant `Packed`, map invariant `AtlasOK` |
| C56, C68, C69 | heap of linked nodes refined to a list of attachments (`Rep`), induction along the tree |
| C57, C58, C70, C71 | case analysis in exact arithmetic; state machines over all histories |
| C63, C66 | bounds on binary32 rounding; exhaustive evaluation only of single bytes (256 cases, the whole domain) |

## Findings

Behaviour of the code that contradicts a property.  Each is a theorem about the model.

| Property | Finding | Theorem |
|---|---|---|
| C05 | `ValueRunsIterator::advance_to` reads one run past the end when asked for the end of the text | `C05_advance_past_end_violated`, `C05_out_of_range_violated` |
| C12 | font weight values longer than 16 bytes overrun a local buffer (formatting.cpp:606-624); three-digit colour channels read one byte past a 3-byte buffer (717-738) | `C12_weight_buffer_violated`, `C12_number_buffer_violated` |
| C14 | drawing looks up formatting one past the end for a right-to-left run that ends the text and for an empty last line | `C14_rtl_violated`, `C14_trailing_line_violated` |
| C15 | a decoration that begins together with a colour change is drawn over the glyphs before it | `C15_violated` |
| C21 | hit testing below the text returns the line count; the vertical text start is ignored | `C21_past_end_violated`, `C21_start_violated` |
| C22, C23, C60 | cursor positions at ends of right-to-left runs resolve to another run or line | `C22_rtl_violated`, `C22_direction_violated`, `C23_rtl_home_violated`, `C60_rtl_violated` |
| C24 | the offset inside a cluster of several glyphs divides only the last glyph; between CR and LF an unsigned subtraction wraps | `C24_cluster_violated`, `C24_separator_violated` |
| C26 | a click can return a position outside the line if a grapheme cluster reaches over a forced break | `C26_straddle_violated` |
| C33 | hanging tabs keep the width of a blank; tab widths in blanks are scaled again each time; tab width 0 divides by zero | `C33_*_violated` |
| C34 | `SingleScriptFont::operator==` ignores weight, style and flags, so neighbouring text is drawn with the wrong font | `C34_violated` |
| C35 | script runs are shifted in every paragraph that does not start at 0 | `C35_violated`, `C35_boundary_violated` |
| C37 | behind an ill-formed byte every character counts as having no script (`UErrorCode` not reset) | `C37_violated` |
| C43 | linked and fallback names have valid handles without being registered | `C43_violated` |
| C44 | fallbacks are not tried if the file of the base face cannot be loaded | `C44_violated` |
| C46 | small caps: the search for the first missing character runs past the case run | `C46_violated` |
| C47, C48 | effective size 0 gets a face of no size; `space_advance` keeps the value of the size first loaded | `C47_violated`, `C48_violated` |
| C49 | `get_sub_font` takes the shared lock again while holding it; with a waiting writer this deadlocks | `C49_violated`, `C49_violated_deadlock` |
| C52 | clicks and arrow keys in an empty text box are undefined; after deleting everything the old layout stays | `C52_empty_violated`, `C52_stale_violated` |
| C53 | a selection collapsed onto the cursor removes text; NUL truncates the clipboard; pasting from an empty clipboard constructs a string from null; copying rich text uses positions of the displayed text | `C53_*_violated` |
| C54 | Backspace, Delete, Enter and Tab edit a read-only box | `C54_violated`, `C54_rich_violated` |
| C56 | a moved object takes its next siblings with it; a new child can replace (and destroy) all others; reverse walk visits detached objects; `set_parent` can destroy its own object; attaching below itself never ends | `C56_*_violated` |
| C66 | `from_abgr_uint` does not mask red; transparent pixels of a coloured glyph are 0/0, converted to an integer | `C66_abgr_violated`, `C66_transparent_violated` |
| C67 | the second request for an empty glyph dereferences a null page; strokes of bold or italic text share entries | `C67_empty_violated`, `C67_stroke_violated` |
| C68 | an object k+1 levels below a moved one is recalculated 2^k times | `C68_cost_violated` |
| C69 | a hidden container is drawn but takes no presses | `C69_hidden_violated` |
| C70 | the press that gives a box the focus is not counted, so a double click needs three clicks | `C70_first_violated` |
| C71 | enter and leave notifications are repeated at every move | `C71_repeated_violated` |
| C73 | the horizontal offset of the first glyph of a shaped run is dropped, moving the run and all behind it, so that runs of vertical text overlap; vertical offsets are applied upside down in horizontal text | `C73_first_offset_violated`, `C73_vertical_overlap_violated`, `C73_upside_down_violated` |
| C74 | clusters of upper case text are looked up as indices of the source text: behind characters whose upper case form has another length glyphs belong to wrong characters, are lost, or memory far outside of the text is read | `C74_shorter_violated`, `C74_longer_violated`, `C74_lost_violated`, `C74_undefined_violated` |
| C75 | `fill_rect` and `blit` move rectangles that start left of or above the bitmap; right of the bitmap `m_width - x` wraps and other rows or memory outside are overwritten | `C75_fill_left_violated`, `C75_blit_left_violated`, `C75_fill_right_violated`, `C75_fill_wrap_violated` |
| C76 | `Color::blend` squares alpha: blending over an opaque colour makes it transparent | `C76_opaque_violated` |
| C78 | a click into editable rich text finds a position in the shown text that is then used in the source, and `set_text` keeps the old cursor: typing can then tear a character apart | `C78_rich_violated`, `C78_set_text_violated` |
| C79 | the HarfBuzz font of a face has no scale until the face is asked for a second time | `C79_scale_violated` |
| C80 | advances from 256 pixels on are rounded in `float` | `C80_rounding_violated` |
| C81 | made-up bold is applied to the glyph slot and not to the stroke that is drawn | `C81_stroke_violated` |
| C82 | a weight lighter than that of the face can make it bolder | `C82_direction_violated` |
| C83 | outlines in font units are emboldened by an amount in pixels of the current size | `C83_unscaled_violated` |
| C84 | negative script numbers throw, unknown script names use an uninitialised variable, an empty list of scripts means all scripts | `C84_defined_violated`, `C84_scripts_violated` |
| C85 | the test in `msdf_move_to` is inverted: all contours of a glyph are merged into one | `C85_contours_violated`, `C85_merged` |
| C87 | distance fields: fonts of one face share entries whatever their style; strokes are not scaled to the font size; superscripts and subscripts stay on the baseline; the second request for a blank glyph dereferences a null page | `C87_style_violated`, `C87_stroke_violated`, `C87_baseline_violated`, `C87_empty_violated` |
| C92 | files: on Linux a file that can be opened but not mapped (every empty file) leaves its descriptor open (file_mapping.cpp:87-98); `set_file_mapping_functions` after a face has been registered makes the destructor unmap with functions that did not map (font_registry.cpp:634-638, 405-407) | `C92_leak_violated`, `C92_functions_violated` |
| C95 | hit testing: in `float` the boundary found need not be the nearest (a ligature of 6 characters 7 pixels wide), the difference is below 1/32 pixel | `C95_nearest_violated` |
| C96 | tool bar: on the edge two titles share, moves act on the left and presses on the right one, so two menus can be open at once | `C96_edge_violated` |
| C96 | tool bar: in a window narrower than its menus, titles outside take presses but do not follow the mouse, so the wrong menu stays open | `C96_narrow_violated` |
| C96 | tool bar: items of closed menus are highlighted with those of the open one | `C96_highlight_violated` |
| C97 | window: a button released over a menu title does not reach the text box, which goes on selecting text without a button | `C97_drag_violated` |
| C97 | window: keys (not characters) reach the focused text box only while the mouse is inside of it | `C97_keys_violated` |
| C97 | window: a press on the frame of an open menu goes to the text below | `C97_tray_violated` |
| C97 | window: the text box reaches ten pixels below the window | `C97_size_violated` |
| C98 | draw_text: the range in which text is white lacks the start of the line, so in centred or right aligned text the wrong part of the letters is white | `C98_white_violated`, `C98_right_violated` |
| C98 | draw_text: with an empty selection a part of a glyph that reaches over its advance is white | `C98_empty_violated` |
| C99 | clicks: after text that ends with text of the other direction, a click on the caret at the end of the line moves it to between the two | `C99_bidi_violated` |
| C99 | clicks: a click on the caret after a letter with an accent (two glyphs, the second without width) moves it before the letter | `C99_accent_violated` |
| C100 | fonts: `harfbuzz_font_create` never gives back its reference to the HarfBuzz face, so a face and its blob stay for each font of each thread | `C100_leak_violated` |
| C101 | glyph names: a beginning of the name of glyph 0, or the empty name, is taken for glyph 0 (the condition lacks parentheses around `len < 0 ? :`) | `C101_prefix_violated` |
| C101 | glyph names: only the first 127 bytes are looked at | `C101_long_violated` |
| C102 | earlier builder: a text that ends with a separator has an empty last line in `LayoutBuilder` and none in the earlier builder (one of the strings of the regression test, `"A\r\n\r\nB\r\nC\r\n"`, ends so) | `C102_final_separator_violated` |
| C102 | earlier builder: text of one font in two scripts is one visual run in `LayoutBuilder`, two in the earlier builder | `C102_merged_violated` |
| C102 | earlier builder: white space at the end of a line takes the direction of the paragraph in `LayoutBuilder`, of its text in the earlier builder | `C102_space_direction_violated` |
| C102 | earlier builder: the ends of runs have the heights of different glyphs; undefined for right-to-left text without glyphs | `C102_height_violated`, `C102_empty_buffer_violated` |
| C103 | life times: the move constructor of `CursorController` swaps an uninitialised pointer, which the source then deletes; the one of `LayoutBuilder` reads the uninitialised `m_cursor` | `C103_controller_move_violated`, `C103_builder_move_violated` |
| C103 | life times: no `UText` is ever closed; each question for a font and each paragraph broken into lines leaves one (and its heap buffer) open | `C103_text_leak_violated` |
| C103 | life times: a text set while the font of the box is invalid leaves the cursor controller with the freed text | `C103_view_violated` |
| C104 | range: a line wider than 33554432 pixels overflows `int32_t`; line breaks do not help against blanks, which hang over the end of a line | `C104_line_violated`, `C104_wide_violated` |
| C105 | leak: `FT_Glyph_Stroke(&glyph, stroker, false)` overwrites the only pointer to the glyph it does not give back (src/font_data.cpp:165, 226); failures: a glyph that does not load or cannot be stroked is used through an unset or null pointer | `C105_leak_violated`, `C105_failure_violated` |
| C105 | the data `rasterize_glyph` hands to its functor lies in the face and is overwritten when the functor draws another glyph of the face | `C105_nested_violated` |
| C106 | lines one pixel higher than the font size unless the scaled ascender happens to be whole (ascender and descender are both rounded outwards; Noto Sans at 48 gives 49); superscripts change the height of a line by parts of a pixel, both ways | `C106_height_violated`, `C106_raised_violated` |
| C107 | superscripts are raised by 0.34 of the size, but count with their ascender scaled back by 0.7 only: they reach above their line, in every face; subscripts below | `C107_superscript_violated`, `C107_mixed_violated`, `C107_subscript_violated` |
| C108 | FreeType gives the middle of the underline, `draw_text` takes it as the top; decorations of raised text are drawn at the baseline of the line | `C108_underline_violated`, `C108_strikethrough_violated` |
| C109 | a pipeline whose shaders fail to compile is bound and drawn with all the same: rectangles are drawn with no program | `C109_program_violated` |
| C110 | the parts of a partly selected glyph are rounded to pixels each on its own, so the glyph is resampled, and at its side the atlas is read beside the place of the glyph, where the texture (made without data) is undefined; underlines and strikethroughs thinner than half a pixel may cover no pixel (Noto Sans at 11 and at 8 pixels) | `C110_selected_violated`, `C110_padding_violated`, `C110_decoration_violated` |
| C111 | `smoothstep(0.5 - w, 0.5 + w, …)` is undefined where the distance does not change (w = 0); MSDF glyphs read the undefined texels beside their places | `C111_flat_violated`, `C111_padding_violated` |
| C113 | `on_resize` does not subtract the height of the tool bar: the text box ends 10 pixels below the window (the right size of sample/main.cpp:84 is overwritten at once); a window 20 pixels wide turns line breaking off, narrower ones ask for negative widths; with a content scale other than 1 the pointer (screen coordinates) and the objects (pixels) do not match | `C113_bottom_violated`, `C113_narrow_violated`, `C113_scale_violated` |
| C114 | only `set_cursor_position_internal` restarts the caret: typed, pasted and cut text moves a caret that may stay hidden | `C114_typing_violated` |
| C116 | `file_read_bytes` believes `ftell` and ignores the result of `fread`: pipes end in an exception that leaves the file open, and what cannot be read becomes zeros (src/file_read_bytes.hpp:15-21). `padded_string_view sv(fileData.data(), fileData.size())` takes the constructor `(std::string_view, capacity)`: the text ends at the first zero byte instead of 64 bytes before the end; half-read files are accepted, and padding without zeros (which the interface allows) makes it read behind the view (src/font_registry_json.cpp:35) | `C116_read_violated`, `C116_zero_violated`, `C116_short_violated`, `C116_data_violated` |
| C117 | as C14: marked-up text that ends with a line break is laid out with a last empty line that starts at the end of the text, and drawing it asks for the formatting of a character that does not exist (src/layout_builder.cpp:222-231, src/formatting_iterator.cpp:9-17) | `C117_violated` |
| C118 | text in synthesised small caps is shaped without the text around it (src/layout_builder.cpp:395-405; there is a FIXME), so that letters at its ends are not joined with their neighbours | `C118_context_violated` |
| C119 | in debug builds `get_font_data(Font)` and `get_default_single_script_font` read `g_familyData` without the mutex in assertions (src/font_registry.cpp:226, 239), a data race with `register_family` | `C119_assert_violated` |
| C120 | text in a registered family whose file cannot be loaded: `shape_logical_run` calls `hb_shape` with a null font (src/layout_builder.cpp:418-419); widths of tabs depend on the sizes the thread used a face at before | `C120_unloadable_violated`, `C120_tabs_violated` |
| C121 | a character that only a fallback font has, followed at another level by one that both fonts have (an Arabic letter, a digit): the earlier builder draws both with the fallback, `LayoutBuilder` the second one with the base font | `C121_fonts_violated` |
| C122 | after small capitals of size 1 (effective size 0) the blank of the face is 0 wide for the rest of the thread; with tab widths in blanks the next tab in that face divides by zero (src/layout_builder.cpp:321-323) | `C122_blank_violated` |
| C124 | `for_each_glyph` passes `*run.pFont`; `VisualRun` has no such member, so the template does not compile once it is used (src/layout_info.hpp:237) | — (read from the source) |
| C125 | the UTF-16 builder of the tests: forcing a break is not bounded by the glyphs (248-250), so that a character with several glyphs in a narrow area is read past the vectors | `C125_cluster_violated` |
| C125 | the loop over a right-to-left run without glyphs leaves the vectors (507-515); such a run begins a line that starts inside a ligature | `C125_empty_run_violated` |
| C125 | `preceding(charIndex + 1)` (393) misses a break in front of a surrogate pair; the line is shorter than the layout builder's | `C125_surrogate_violated` |
| C125 | the empty text has one line, in the layout builder none (its font would be looked up at index -1) | `C125_empty_text_violated` |
| C126 | extents of lines go through `float`: beyond 2^24 64ths of a pixel the parts of a line no longer add up to its height | `C126_extents_violated` |
| C128 | the area of the text of every item of a menu is as wide as its row but begins 32 pixels later: it ends 29 pixels behind the tray | `C128_text_violated` |
| C130 | `paragraphLevel \|= UBIDI_LEVEL_OVERRIDE` changes neither 0xFE nor 0xFF, and `build_layout_info_utf8` does not look at the flag: no builder of the tests overrides directions as the layout builder does. Any paragraph whose first strong character has the other direction differs | `C130_override_violated`, `C130_flags` |
| C130 | the LayoutEx builder keeps the level of the first paragraph that is not empty for all later ones (`paragraphLevel = pl.getParagraphLevel()`) | `C130_carry_violated` |
| C130 | it drops the fractions of ascents and descents, so lines are too low for fonts whose metrics are not whole numbers | `C130_heights_violated` |
| C130 | it takes the first and the last glyph of a run for those of the first and the last character; where glyphs are reordered the range of the run is wrong, for two exchanged glyphs empty | `C130_reordered_violated` |
| C131 | a text area narrower than 1/64 pixel is truncated to width zero, which means no line breaking: a text that takes three lines in an area of two pixels is on one line there | `C131_zero_violated` |
| C129, C131 | tab stops in blanks and a tab without a break opportunity behind it (in front of a comma, an exclamation mark, a closing bracket): a line that looks at the tab but ends before it leaves the adjusted width, which the next line takes for that of a blank; the text gets more lines than it needs, and more lines in a wider area | `C129_tab_violated`, `C131_tab_violated` |
| C132 | `LESingleScript::getFontTable` never destroys the blob it gets from `hb_face_reference_table`: each table found leaks a blob, and the blob of the font file with it even after font and face are destroyed | `C132_leak_violated` |
| C131 | (no defect, but worth knowing where a box is made as high as its text) a text in two sizes may become higher when its area is made wider: the large characters come to stand on two lines instead of one | `C131_height_violated` |
| C134 | in right-to-left text of two or more lines Up may leave the caret where it is, however often it is pressed: the place found at the end of the line above has default affinity and is shown at the start of the line below (compare C60) | `C134_rtl_violated` |
| C134 | Up and Down keep no column: Down from the end of a long line to a shorter one and Up again does not lead back to the place | `C134_column_violated` |
| C136 | Backspace does not take back what was typed if it joined what was there: an accent typed behind a letter goes together with the letter. Shift+Left followed by Shift+Right leaves an empty selection: Backspace then removes nothing, and of two characters typed the first is lost | `C136_accent_violated`, `C136_collapsed_violated` |
| C137 | Breaking `n` control characters (which hang, but have no break opportunities between them) that are wider than the area takes time proportional to the square of `n`: each line takes one of them and looks at all that follow | `C137_quadratic_violated` |
| C138 | The character `<` cannot be written in markup (there are no character references): a text that shows it shows all its tags too, unformatted | `C138_angle_violated` |
| C139 | An ordinary character typed inside a tag makes the parser show the whole source, unformatted | `C139_inside_tag_violated` |
| C140 | A combining accent behind a tag is one grapheme cluster with the `>` of the tag in the source; Backspace removes both, and the whole source is shown | `C140_accent_violated` |
| C141 | Taking away the last character of a text, or leaving a box of rich text that holds only tags, makes the next frame undefined: `recalc_text` returns before it rebuilds the layout (sample/text_box.cpp:434-440), and `render` draws the old layout with the formatting of the empty text, whose run at index 0 does not exist (src/formatting_iterator.cpp:9-17) | `C141_emptied_violated` |
| C144 | A click during which the pointer moves, be it inside one character, starts a selection of nothing that is kept: of the characters typed next the first is replaced by the second | `C144_violated`, `C144_type_partial` |
| C145 | Select all, Cut, click, Paste: the click is looked up in the old layout and the cursor ends up behind the text; Backspace then throws `std::out_of_range` | `C145_all_violated` |
| C146 | After a click during which the pointer moved without leaving the place, typing two characters keeps one, pasting them keeps both | `C146_violated` |
| C147 | A double click at the start of a word selects the word before it; a third click in right-to-left text selects nothing, as the start of the line is taken for the next line | `C147_start_violated`, `C147_rtl_violated` |
| C148 | Cutting and pasting a stretch with a NUL in it loses what is behind the NUL | `C148_nul_violated` |
| C150 | Typing after a double click on a word also replaces the white space behind it: `ab cd e` becomes `ab xye` | `C150_joined_violated` |
| C151 | A double click on a box without focus selects nothing, as the click that gives it the focus is not counted; two quick clicks at points far apart count as a double click if they stand for the same place, as behind the end of a line | `C151_focus_violated`, `C151_apart_violated` |
| C152 | The button going down with a double click also starts a drag: the least movement of the pointer before it is released ends the selection at the pointer, so that part of the word, or of the text after four clicks, is no longer selected | `C152_word_violated`, `C152_all_violated` |
| C153 | A click into editable rich text without focus finds a place in the text shown, but what is typed is inserted at that offset of the source with its tags | `C153_rich_violated` |
| C154 | A click with shift where the caret is starts a selection of nothing that is kept: of the characters typed next the first is replaced by the second | `C154_same_violated` |
| C156 | A box with a single line leaves on Enter, but pasting puts the line breaks of the clipboard into its text | `C156_paste_violated` |
| C157 | In every state, Copy with a NUL in the selection puts another text on the clipboard than the one selected (C53, C148) | `C157_nul_violated` |
| C158 | Keys with shift that lead back to where the caret was leave an empty selection: of the characters typed next the first is replaced by the second | `C158_back_violated` |

## Not modelled

* Of OpenGL: rasterisation of lines (`sample/outline_shader.hpp`; where they run is `C110_outline`), blending, the arithmetic of GPUs, compilation of shaders; error messages of
  the driver.
* Of the HarfBuzz callbacks in `src/harfbuzz_font.cpp` only the transformation under `HAVE_FT_GET_TRANSFORM`, which is not defined; FreeType rasterisation, the pixels of distance fields.
* The contents of mapped files, the JSON parser (a parameter).
* The alternative layout builders in `test/` but `build_layout_info_utf8` (C102, C121), `build_layout_info_icu` (C125) and
  `build_layout_info_icu_lx` (C130, C132, C133).
