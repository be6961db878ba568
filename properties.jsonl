{"id": "C01", "title": "Run lookup finds the run that covers the index", "statement": "For a ValueRuns object filled by add() with non-decreasing limits, get_value(i) returns, for every i below get_limit(), the value passed to the first add() whose limit exceeds i, and get_run_containing_index never reads a run that does not exist. For i at or past get_limit() get_run_containing_index returns get_run_count().", "quantifier": "every list of runs with non-decreasing limits (any length, repeated limits allowed) and every index", "why_tests_cant": "the binary search has different probe sequences for every run count; tests sample a few counts and indices", "anchors": ["src/value_runs.hpp:53-75 get_run_containing_index, get_value", "src/binary_search.hpp:6-22 binary_search"]}
{"id": "C02", "title": "Packed boolean runs behave like ordinary runs", "statement": "ValueRuns<bool> answers get_run_count, get_run_limit, get_run_value, get_limit, get_value, for_each_run_in_range exactly as the generic ValueRuns<T> would for the same sequence of add() calls, as long as limits are in [0, 2^31).", "quantifier": "every sequence of add(limit, value) with 0 <= limit < 2^31 and every query", "why_tests_cant": "the value shares a 32-bit word with the limit; only all bit patterns show that neither leaks into the other", "anchors": ["src/value_runs.hpp:136-189 ValueRuns<bool>, encode"]}
{"id": "C03", "title": "Extracting a sub-range keeps every value", "statement": "get_runs_subset(offset, length, out) on an empty out gives runs with out.get_value(k) == src.get_value(offset + k) for every k in [0, length), and out.get_limit() == length, whenever [offset, offset+length) lies inside the source.", "quantifier": "every run list with non-decreasing limits, every offset and length inside it, every k", "why_tests_cant": "off-by-one at run edges shows only for particular alignments of range and run boundaries", "anchors": ["src/value_runs.hpp:27-51 for_each_run_in_range, get_runs_subset"]}
{"id": "C04", "title": "Intersecting several run lists reports every index once with all its values", "statement": "iterate_run_intersections over k>=1 run lists that end at the same limit terminates, never reads a run that does not exist, reports non-decreasing limits ending at the common limit, and for every index i the segment covering i carries exactly (runs_1.get_value(i), ..., runs_k.get_value(i)).", "quantifier": "every k>=1 and every k-tuple of run lists with non-decreasing limits and a common final limit", "why_tests_cant": "k run lists advance in lock step; the interleavings of boundaries are unbounded", "anchors": ["src/value_run_utils.hpp:16-61 iterate_run_intersections, find_next_min_limit, advance_intersect_indices"]}
{"id": "C05", "title": "Run iterators never read past the last run", "statement": "ValueRunsIterator::advance_to / MaybeDefaultRunsIterator::advance_to, as driven by iterate_run_intersections(min, max, ...), only read runs that exist, and leave get_value() equal to the value of the run covering the index.", "quantifier": "every run list, every starting run and every target index, including the index equal to the end of the text", "why_tests_cant": "an out-of-range vector read usually returns some heap word and the test still passes", "anchors": ["src/value_runs_iterator.hpp:64-88 advance_to", "src/value_run_utils.hpp:63-71", "src/layout_builder.cpp:260-283"]}
{"id": "C06", "title": "The run builder records the innermost value for every character", "statement": "Driving ValueRunBuilder with a properly nested sequence of push/pop at the current output length and a final pop yields runs whose value at i is the value of the innermost push open when character i was emitted (or the base value), with get_limit() equal to the final length; zero-length regions do not disturb their neighbours.", "quantifier": "every nesting of pushes, pops and emitted characters, of any depth and length", "why_tests_cant": "needs every nesting shape including empty regions and regions that share an edge", "anchors": ["src/value_run_builder.hpp:8-42 push, pop, get"]}
{"id": "C07", "title": "Markup parsing always ends with consistent run lists", "statement": "parse_inline_formatting returns for every byte string (no input makes the parser loop), and each of the eight run lists it returns is non-empty, has non-decreasing limits and ends exactly at contentText.size().", "quantifier": "every byte string, every base font/colour/stroke, every registered-family table", "why_tests_cant": "unbounded inputs; termination and run coverage cannot be observed from samples", "anchors": ["src/formatting.cpp:126-207", "src/formatting.cpp:149-170 get_result", "src/formatting.cpp:790-799 finalize_runs"]}
{"id": "C08", "title": "Malformed markup falls back to the verbatim text", "statement": "If the markup is not well formed then contentText equals the input byte for byte and every run list is the single base value (false for the flags) spanning the whole text.", "quantifier": "every byte string without byte 0xFF that is not in the markup grammar", "why_tests_cant": "requires knowing that no partially applied formatting can leak out of any error path", "anchors": ["src/formatting.cpp:109-124 make_default_formatting_runs", "src/formatting.cpp:149-153 get_result"]}
{"id": "C09", "title": "Plain text is left alone", "statement": "Text that contains neither '<' nor the byte 0xFF parses to itself with every run list equal to the single base value.", "quantifier": "every byte string without '<' and 0xFF", "why_tests_cant": "unbounded inputs", "anchors": ["src/formatting.cpp:180-207 parse_content"]}
{"id": "C10", "title": "Well-formed markup gets exactly the formatting of its enclosing tags", "statement": "For every document in the markup grammar (text, comments, <s>, <u>, <sub>, <super>, <sc>, <smallcaps>, <i>, <font ...>, <stroke ...>, arbitrarily nested) contentText is the document with the markup removed and, for every content byte, each run list's get_value gives the formatting determined by the tags enclosing that byte.", "quantifier": "every document of the grammar, any nesting depth and size", "why_tests_cant": "a recursive grammar; each nesting shape is a separate input", "anchors": ["src/formatting.cpp:180-556", "src/value_run_builder.hpp"]}
{"id": "C11", "title": "Only well-formed markup is accepted", "statement": "If parse_inline_formatting does not fall back, the input is a document of the markup grammar: tags are closed in order with the exact spelling, comments are terminated, attributes are complete.", "quantifier": "every byte string without byte 0xFF", "why_tests_cant": "absence of accepted ill-formed inputs is a statement about all inputs", "anchors": ["src/formatting.cpp:180-342"]}
{"id": "C12", "title": "The parser's fixed buffers are never overrun", "statement": "parse_inline_formatting never reads or writes outside its fixed-size local buffers.", "quantifier": "every byte string", "why_tests_cant": "an overrun of a stack buffer is invisible to a test unless it happens to crash", "anchors": ["src/formatting.cpp:604-667 parse_attribute(FontWeight)", "src/formatting.cpp:704-757 parse_color_rgb"]}
{"id": "C13", "title": "The formatting iterator reports the formatting of the current character", "statement": "After any sequence of FormattingIterator::advance_to calls, forwards or backwards, get_color/get_stroke_state/has_strikethrough/has_underline equal the corresponding run value at the last index (or of the last run when the index is past the end), independent of the path.", "quantifier": "every formatting with non-decreasing limits and every sequence of indices", "why_tests_cant": "history independence ranges over all call sequences", "anchors": ["src/formatting_iterator.cpp:19-78 advance_to, advance_run"]}
{"id": "C14", "title": "Formatting iterators are constructed inside the formatting", "statement": "Drawing any laid out text with its formatting constructs FormattingIterator only at indices covered by the formatting runs, so the constructor never reads a run that does not exist.", "quantifier": "every layout and formatting of the same text", "why_tests_cant": "the bad read is one element past the end of a vector", "anchors": ["src/formatting_iterator.cpp:9-17", "src/text_draw_util.hpp:52-53"]}
{"id": "C15", "title": "Decorations cover exactly the decorated glyphs", "statement": "draw_text emits underline (strikethrough) rectangles that cover exactly the horizontal extents of the underlined (struck) glyphs of each run, each piece in the colour of the glyphs above it.", "quantifier": "every run of glyphs with every assignment of colour and decoration flags", "why_tests_cant": "the rectangles come from a begin/end event machine; the event interleavings are unbounded", "anchors": ["src/formatting_iterator.cpp:19-46", "src/text_draw_util.hpp:40-112 draw_text"]}
{"id": "C16", "title": "Drawing visits every glyph once, in order, at its place", "statement": "draw_text calls the glyph visitor exactly once per glyph, in storage order, with the glyph's id, its run's font, x = line start + stored x, y = line baseline + stored y, and the colour of its character.", "quantifier": "every layout produced through the append API and every formatting", "why_tests_cant": "the glyph, run and position cursors are advanced separately and must stay aligned for every layout shape", "anchors": ["src/text_draw_util.hpp:11-112", "src/layout_info.hpp:205-225 for_each_line, for_each_run"]}
{"id": "C17", "title": "Cursor positions pack and unpack without loss", "statement": "set_position/set_affinity change only the position/affinity, get_position and get_affinity return what was set, and a cursor with a position below 2^31-1 is never invalid.", "quantifier": "every 32-bit cursor value, every position in [0, 2^31) and both affinities", "why_tests_cant": "2^33 combinations", "anchors": ["src/cursor_position.hpp:12-56"]}
{"id": "C18", "title": "Font handles pack and unpack without loss", "statement": "FontFace(family, weight, style) returns the same family, weight and style from its getters, distinct triples give distinct faces, and it is valid exactly when the family is valid; Font keeps them together with the size.", "quantifier": "every 16-bit family handle, weight below 16, style below 2", "why_tests_cant": "two million handles with overlapping bit fields", "anchors": ["src/font.hpp:7-80 FontFace, Font"]}
{"id": "C19", "title": "Layout storage stays consistent under the append protocol", "statement": "For every sequence of layout-building calls (runs of glyphs followed by their closing position, lines, empty lines), the stored position count is 2*(glyphs+runs), glyph and run end indices are non-decreasing, every line's runs and every run's glyphs and positions are in range, and get_first_position_index addresses the run's first position.", "quantifier": "every sequence of append operations of any length", "why_tests_cant": "an invariant over unbounded operation histories", "anchors": ["src/layout_info.cpp:36-92", "src/layout_info.cpp:346-356"]}
{"id": "C20", "title": "Line geometry adds up", "statement": "get_line_height(i) is the height passed when line i was appended, get_text_height() is the sum of all line heights, for_each_line reports baselines at text start + sum of previous heights + ascent.", "quantifier": "every sequence of appended lines", "why_tests_cant": "telescoping sums over unbounded line lists", "anchors": ["src/layout_info.cpp:52-86", "src/layout_info.cpp:366-369", "src/layout_info.hpp:205-214"]}
{"id": "C21", "title": "Vertical hit testing picks the line under the point", "statement": "get_closest_line_to_height(y) returns the line whose vertical band contains y, 0 above the first line and the last line's index below the last line; closest_to_position uses the line drawn at that height.", "quantifier": "every layout with positive line heights, every y, every vertical alignment", "why_tests_cant": "real-valued inputs over unbounded line lists", "anchors": ["src/layout_info.cpp:146-150", "src/layout_info.hpp:95-99", "src/cursor_controller.cpp:123-132"]}
{"id": "C22", "title": "A cursor position resolves to a run that contains it", "statement": "For every cursor position inside the text and both affinities get_run_containing_cursor returns a run whose character range (including its separator) contains the position, and outLineNumber is the line of that run.", "quantifier": "every layout covering the text, every position, both affinities", "why_tests_cant": "the affinity rules depend on neighbouring runs' directions and line breaks; combinations are unbounded", "anchors": ["src/layout_info.cpp:111-144", "src/layout_info.cpp:527-535"]}
{"id": "C23", "title": "Home and End stay on their line", "statement": "For every line, the positions returned by get_line_start_position and get_line_end_position lie in that line's character range and resolve (get_run_containing_cursor) back to that line; in a left-to-right line they are the lowest start and the highest end of the line's runs.", "quantifier": "every line of every layout", "why_tests_cant": "depends on soft/hard break and affinity for every layout shape", "anchors": ["src/layout_info.cpp:152-190"]}
{"id": "C24", "title": "Horizontal cursor offsets are exact at glyph edges and monotone", "statement": "get_glyph_offset_in_run returns the glyph's left edge at a left-to-right glyph's first character, interpolates linearly inside a cluster, is monotone in the cursor position (antitone in right-to-left runs) and stays between the run's first and last stored position.", "quantifier": "every run with sorted character indices and monotone positions, every cursor in the run", "why_tests_cant": "real-valued interpolation over unbounded runs", "anchors": ["src/layout_info.cpp:467-523"]}
{"id": "C25", "title": "Selection rectangles abut and cover", "statement": "get_position_range_in_run gives ordered bounds, the range of all the run's characters gives the run's full extent, and the rectangles of adjacent character ranges share an edge so that their widths add up.", "quantifier": "every run, every pair or triple of character indices", "why_tests_cant": "unbounded runs and real positions", "anchors": ["src/layout_info.cpp:320-339"]}
{"id": "C26", "title": "Horizontal hit testing returns a position in the clicked run", "statement": "find_closest_cursor_position always terminates and returns a position inside a run of the given line; in a left-to-right run it returns the grapheme boundary in the clicked cluster nearest to x.", "quantifier": "every layout, line, x coordinate, alignment and break iterator", "why_tests_cant": "real-valued inputs and unbounded clusters", "anchors": ["src/layout_info.cpp:207-318"]}
{"id": "C27", "title": "Alignment places lines inside the text area", "statement": "A line not wider than the text area starts at >= 0 and ends at <= textWidth for every alignment; LEFT starts at 0, RIGHT ends at textWidth, CENTER leaves equal margins; vertical alignment places the text block likewise.", "quantifier": "every line width, area size and alignment", "why_tests_cant": "real-valued inputs", "anchors": ["src/layout_info.cpp:192-205", "src/layout_builder.cpp:236-238"]}
{"id": "C28", "title": "Line breaking terminates and partitions the paragraph", "statement": "For every paragraph, glyph sequence in logical order, width and break iterator, the line-breaking loop ends and the lines are consecutive, non-empty, non-overlapping character ranges covering exactly the paragraph.", "quantifier": "every paragraph, every glyph widths (also zero or negative), every break iterator results", "why_tests_cant": "termination for all inputs", "anchors": ["src/layout_builder.cpp:298-371"]}
{"id": "C29", "title": "Only white space hangs over the margin", "statement": "Unless a line had to be forced (nothing fits or no break opportunity), every glyph of a line from the first overflowing glyph on belongs to white space or control characters.", "quantifier": "every tab-free paragraph, widths and break iterator", "why_tests_cant": "all inputs of a greedy loop", "anchors": ["src/layout_builder.cpp:310-371", "src/layout_builder.cpp:669-686 find_previous_line_break"]}
{"id": "C30", "title": "Visual runs partition each line", "statement": "For every line and bidi runs covering it, the visual runs appended for the line are consecutive pieces of the bidi runs in visual order, each inside one logical run, and together contain every character of the line exactly once; the loops stay inside the logical run list.", "quantifier": "every list of logical runs, every line, every bidi segmentation", "why_tests_cant": "splitting depends on the relative position of arbitrary boundaries", "anchors": ["src/layout_builder.cpp:492-575 compute_line_visual_runs"]}
{"id": "C31", "title": "Shaped glyphs are neither lost nor duplicated nor reordered", "statement": "The glyphs appended for the visual runs of a paragraph's lines are exactly the shaped glyphs, each once, in logical order inside left-to-right runs and in reverse order inside right-to-left runs, with positions accumulating the glyph widths from the line start.", "quantifier": "every glyph list with sorted character indices, every line partition", "why_tests_cant": "unbounded glyph lists and split points", "anchors": ["src/layout_builder.cpp:577-631 append_visual_run"]}
{"id": "C32", "title": "Every byte of the text belongs to exactly one run", "statement": "After build_layout_info the run character ranges together with their separator lengths cover [0, count) exactly once, with one extra empty run at the end when the text ends in a separator.", "quantifier": "every text and paragraph segmentation", "why_tests_cant": "whole-text coverage for all inputs", "anchors": ["src/layout_builder.cpp:159-241"]}
{"id": "C33", "title": "Tabs advance to the next tab stop", "statement": "After laying out a line every tab ends at the next multiple of the tab width measured from the line start, and no tab has zero or negative width.", "quantifier": "every glyph list, tab width and line width", "why_tests_cant": "tab widths are state that is rewritten while lines are retried", "anchors": ["src/layout_builder.cpp:322-366", "src/layout_builder.cpp:633-648"]}
{"id": "C34", "title": "Every character is drawn with the font resolved for it", "statement": "The font stored in the run containing a character equals, in every attribute (face, size, weight, style, subscript, superscript, small caps), the font resolved for that character's formatting.", "quantifier": "every sequence of resolved sub-font runs", "why_tests_cant": "merging of adjacent runs depends on all attribute combinations", "anchors": ["src/layout_builder.cpp:270-281", "src/font.hpp:96-98 SingleScriptFont::operator=="]}
{"id": "C35", "title": "Every character is shaped with the script of its script run", "statement": "In every paragraph, the script passed to shaping for a character is the script of the script run containing it.", "quantifier": "every paragraph offset, every script run list and every set of other run boundaries", "why_tests_cant": "needs several paragraphs and several interleaved run lists", "anchors": ["src/layout_builder.cpp:26-50 ScriptRunValueIterator", "src/layout_builder.cpp:260-283"]}
{"id": "C36", "title": "Script runs partition the text", "statement": "Repeated ScriptRunIterator::next returns consecutive non-empty runs that start at 0 and end at the text length, after finitely many calls.", "quantifier": "every text, every script assignment", "why_tests_cant": "all inputs", "anchors": ["src/script_run_iterator.cpp:64-133"]}
{"id": "C37", "title": "A script run contains one script", "statement": "Within a run, every character whose own script is a real script and which is not a closing bracket has the run's script; a run reported as Common contains only Common/Inherited characters.", "quantifier": "every text and script assignment", "why_tests_cant": "all inputs", "anchors": ["src/script_run_iterator.cpp:64-133", "src/script_run_iterator.cpp:235-237"]}
{"id": "C38", "title": "The bracket stack is never indexed out of range", "statement": "Whatever the text, the bracket stack index used by push, pop, fixup and next is always within the 32 entries, even with unbalanced or deeper nested brackets.", "quantifier": "every text, every history of calls", "why_tests_cant": "requires more than 32 nested brackets in all combinations with script changes; signed/unsigned arithmetic", "anchors": ["src/script_run_iterator.cpp:21-27", "src/script_run_iterator.cpp:135-171"]}
{"id": "C39", "title": "Bracket lookup is exact", "statement": "get_pair_index(ch) is the table index of ch for the 34 paired characters (even for opening, odd for closing) and -1 for every other code point, including invalid ones.", "quantifier": "every 32-bit code point value", "why_tests_cant": "2^32 inputs", "anchors": ["src/script_run_iterator.cpp:32-50", "src/script_run_iterator.cpp:173-233"]}
{"id": "C40", "title": "Family handles are stable and unique", "statement": "Once a name has a family handle every later lookup of that name returns the same handle and no other name ever gets it, over every history of registrations and lookups (below 65535 families).", "quantifier": "every history of register_family / get_family calls", "why_tests_cant": "unbounded histories", "anchors": ["src/font_registry.cpp:203-211", "src/font_registry.cpp:550-560"]}
{"id": "C41", "title": "A registered family has a face for every weight and style", "statement": "After register_family returns NONE with at least one face, every (weight, style) resolves to a valid face; a requested pair that was supplied resolves to the supplied face, any other resolves to the Regular/Normal face if supplied and otherwise to the first face.", "quantifier": "every registry state, every face list", "why_tests_cant": "all subsets of the 18 slots and all registry histories", "anchors": ["src/font_registry.cpp:317-387"]}
{"id": "C42", "title": "Failed registrations change nothing visible", "statement": "register_family returning ALREADY_LOADED leaves the registry unchanged; returning NO_FACES leaves every initialised family unchanged and the name can still be registered later with the same effect.", "quantifier": "every registry state and registration request", "why_tests_cant": "all states", "anchors": ["src/font_registry.cpp:317-362"]}
{"id": "C43", "title": "get_family returns only usable families", "statement": "get_family(name) returns a valid handle only for families that have been initialised by register_family (as documented in font_registry.hpp).", "quantifier": "every history", "why_tests_cant": "needs histories in which a name is only reserved", "anchors": ["src/font_registry.hpp:41-47", "src/font_registry.cpp:203-211"]}
{"id": "C44", "title": "Script and fallback selection follow the documented order", "statement": "The base face is that of the family if it covers the script, otherwise of the first initialised linked family covering it, otherwise of the family; the face chosen for text is the base face if it can draw the first drawable character, otherwise the first initialised fallback that can.", "quantifier": "every registry state, script and text", "why_tests_cant": "all registry states", "anchors": ["src/font_registry.cpp:579-632"]}
{"id": "C45", "title": "Sub-font segmentation always advances and stays inside the run", "statement": "get_sub_font moves offset strictly forward and never past limit, so splitting a run into sub-fonts terminates and partitions it; all characters of a segment from the first drawable one on can be drawn by the chosen face.", "quantifier": "every text segment, fallback table and coverage function", "why_tests_cant": "all inputs", "anchors": ["src/font_registry.cpp:468-548"]}
{"id": "C46", "title": "Synthesised small caps never mix letter cases in one segment", "statement": "With small caps on, all cased characters of a segment returned by get_sub_font agree on whether they change when upper-cased.", "quantifier": "every text segment and coverage function", "why_tests_cant": "needs fonts with particular missing characters", "anchors": ["src/font_registry.cpp:440-548"]}
{"id": "C47", "title": "Font data is always set to the requested size", "statement": "After every get_font_data call, in every history of calls on a thread, the shared FreeType face of that font is set to the effective size of this call.", "quantifier": "every history of get_font_data calls", "why_tests_cant": "cache state depends on the complete call history", "anchors": ["src/font_registry.cpp:70-151 FontDataOwner", "src/font_registry.cpp:249-315"]}
{"id": "C48", "title": "Font data depends only on the request", "statement": "The metrics returned by get_font_data for the same face and size do not depend on earlier calls.", "quantifier": "every pair of histories ending in the same request", "why_tests_cant": "history independence", "anchors": ["src/font_registry.cpp:70-151", "src/font_registry.cpp:249-315"]}
{"id": "C49", "title": "The registry lock is never taken twice by one thread", "statement": "No registry function tries to acquire the registry lock while it already holds it, so concurrent layout and registration cannot deadlock.", "quantifier": "every interleaving of readers and writers", "why_tests_cant": "schedules cannot be enumerated by tests", "anchors": ["src/font_registry.cpp:249-315", "src/font_registry.cpp:468-548"]}
{"id": "C50", "title": "Character movement steps over whole graphemes and is invertible", "statement": "next_character moves to the next grapheme boundary and prev_character to the previous one, they never leave [0, size], stay put at the ends, and from a boundary prev(next(p)) = p unless p is the end.", "quantifier": "every text with every grapheme segmentation and every position", "why_tests_cant": "all texts", "anchors": ["src/cursor_controller.cpp:45-59"]}
{"id": "C51", "title": "Word movement terminates, moves monotonically and stops at word starts", "statement": "next_word returns the first grapheme boundary after the cursor that starts a word after white space or is at a line break, or the end of text; prev_word returns the start of the current or previous word, a line break, or 0; both terminate and never move the wrong way.", "quantifier": "every text, segmentation and position", "why_tests_cant": "all texts", "anchors": ["src/cursor_controller.cpp:61-116"]}
{"id": "C52", "title": "Editing keeps the cursor and selection inside the text", "statement": "Starting from an empty text box, after every sequence of key presses, typed characters, clipboard operations and mouse clicks, the cursor and the selection start are positions inside the text.", "quantifier": "every sequence of editing operations", "why_tests_cant": "unbounded histories", "anchors": ["sample/text_box.cpp:267-418"]}
{"id": "C53", "title": "Editing operations are string splices", "statement": "Typing or pasting with a selection replaces exactly the selected bytes, without a selection inserts at the cursor and leaves the cursor behind the inserted text; Backspace/Delete remove the selection if there is one and otherwise exactly one grapheme (or word with Ctrl) before/after the cursor; cut followed by paste restores the text.", "quantifier": "every text, cursor, selection and input", "why_tests_cant": "all states", "anchors": ["sample/text_box.cpp:285-418"]}
{"id": "C54", "title": "A read-only text box is never modified by the user", "statement": "When a text box is not editable no key press, typed character or clipboard operation changes its text.", "quantifier": "every state and every user input", "why_tests_cant": "all inputs in all states", "anchors": ["sample/text_box.cpp:63-163", "sample/text_box.cpp:285-372"]}
{"id": "C55", "title": "Atlas glyph rectangles never overlap and stay inside the page", "statement": "For every sequence of uploaded glyph bitmaps not larger than the page, the rectangles handed out on one page are pairwise disjoint (including padding) and inside the page, and colour and non-colour glyphs never share a page.", "quantifier": "every sequence of bitmap sizes", "why_tests_cant": "packing invariants over unbounded histories", "anchors": ["sample/text_atlas.cpp:129-180"]}
{"id": "C56", "title": "The child list of a UI object is exactly its children", "statement": "After every sequence of set_parent calls, for_each_child of an object visits exactly the objects whose parent it is, each once, in the order they were attached.", "quantifier": "every history of set_parent calls", "why_tests_cant": "pointer surgery over unbounded histories", "anchors": ["sample/ui_object.cpp:37-75", "sample/ui_object.hpp:110-150"]}
{"id": "C57", "title": "Clipped rectangles tile the original", "statement": "emit_rect with a clip range emits rectangles that are pairwise non-overlapping and together cover exactly the unclipped rectangle, with texture coordinates interpolated linearly, and paints white only inside the clip range widened by less than one pixel on either side.", "quantifier": "every rectangle and clip range", "why_tests_cant": "real-valued inputs", "anchors": ["sample/ui_container.cpp:16-65"]}
{"id": "C58", "title": "At most one object has the focus", "statement": "After every sequence of focus_object/release_focused_object calls at most one object reports is_focused, and it is the one recorded by the container; every object that gets focus later gets exactly one focus-lost notification.", "quantifier": "every history", "why_tests_cant": "unbounded histories", "anchors": ["sample/ui_container.cpp:335-356"]}
{"id": "C59", "title": "The caret rectangle is the line's extent at the cursor's offset", "statement": "calc_cursor_pixel_pos returns the x start of the line of the run found for the cursor plus the cursor's offset in that run, the top of that line, its height and its index.", "quantifier": "every layout made by the builder calls, every alignment, width, cursor position and affinity", "why_tests_cant": "unbounded layouts and real-valued positions", "anchors": ["src/layout_info.cpp:96-109"]}
{"id": "C60", "title": "A click resolves to the clicked line", "statement": "The cursor position and affinity returned by find_closest_cursor_position for a line resolve, through get_run_containing_cursor, to a run of that same line, so the caret is drawn on the line that was clicked.", "quantifier": "every layout, every line and every horizontal position", "why_tests_cant": "the affinity bit matters only where a line ends exactly at a soft break; the combinations of breaks, separators and directions are unbounded", "anchors": ["src/layout_info.cpp:207-312 find_closest_cursor_position", "src/layout_info.cpp get_run_containing_cursor"]}
{"id": "C61", "title": "Matching brackets get the same script", "statement": "A closing bracket that closes one of the 32 most recent open brackets lies in a run with the same script as the run of the bracket it closes, even if runs of other scripts lie between them; brackets opened later and never closed do not matter.", "quantifier": "every text, every script assignment in which opening brackets are Common or Inherited", "why_tests_cant": "needs an invariant linking the ring buffer of open brackets, with its fixups and pops over several calls, to the runs already returned", "anchors": ["src/script_run_iterator.cpp:64-171"]}
{"id": "C62", "title": "Script runs are maximal", "statement": "A script run that ends before the end of the text has a real script and the next character, unless it is a closing bracket, has a different real script, so text is never split without need.", "quantifier": "every text, well-formed or not, every script assignment", "why_tests_cant": "all inputs", "anchors": ["src/script_run_iterator.cpp:64-133"]}
{"id": "C63", "title": "Effective font sizes are exact", "statement": "The effective size is the base size times 8/10 for small capitals times 7/10 for sub- or superscript, rounded down, for every base size below 2^20 although it is computed in float; of all 32-bit sizes only the unscaled ones from 2^32-128 on are undefined.", "quantifier": "every base size and combination of flags", "why_tests_cant": "rounding of every one of the 2^20 sizes, and 2^32 sizes for definedness", "anchors": ["src/font_common.hpp:88-106"]}
{"id": "C64", "title": "Navigation keys, clicks and selection in the text box", "statement": "Each navigation key moves the caret to the position the cursor controller gives for it (left/right by grapheme or word, up/down to the line above/below, Home/End to the line or text ends, with Ctrl), drops the selection without Shift, and with Shift selects exactly the text between the old anchor and the new caret; a click places the caret and starts a selection there, dragging extends it, Ctrl+A selects all; the text is never changed.", "quantifier": "every text box state, key and mouse position", "why_tests_cant": "all states, texts and positions", "anchors": ["sample/text_box.cpp:13-283"]}
{"id": "C65", "title": "Typed characters are inserted in UTF-8", "statement": "For every Unicode scalar value, the bytes inserted by typing it are exactly its UTF-8 encoding, and the caret stands behind them.", "quantifier": "every Unicode scalar value, text, cursor and selection", "why_tests_cant": "1.1 million characters in every text", "anchors": ["sample/text_box.cpp:374-396"]}
{"id": "C67", "title": "The glyph atlas answers every request with the bitmap of that glyph", "statement": "After every history of requests, the answer for a glyph or stroke is that of its own bitmap: size, offset plus baseline, colour flag, and a rectangle of that size inside a page (no page exactly if the bitmap is empty); the same request gets the same rectangle again; different requests never share a rectangle.", "quantifier": "every history of requests, every rasterizer whose bitmaps fit a page", "why_tests_cant": "unbounded histories", "anchors": ["sample/text_atlas.cpp:24-127", "sample/text_atlas.cpp:182-207"]}
{"id": "C66", "title": "Colours survive conversion to and from 32-bit words", "statement": "Every 32-bit word converted to four floats and back with the same byte order is the same word; 24-bit markup colours come back exactly and opaque; an atlas pixel of a grey bitmap keeps its byte as alpha, and one of a premultiplied colour bitmap has the given alpha and each channel divided by alpha, rounded down to at most one less. The conversions are never undefined.", "quantifier": "every 32-bit word, every byte quadruple of a premultiplied pixel, in exact binary32 arithmetic", "why_tests_cant": "2^32 words and 2^32 pixels, with rounding at every step", "anchors": ["src/color.hpp:13-51", "sample/text_atlas.cpp:104-123", "sample/bitmap.cpp:76-82"]}
{"id": "C68", "title": "Absolute positions follow the parents", "statement": "After every history of set_parent, set_position and set_visible calls, the absolute position of every object is its own position plus the absolute position of its parent, or its own position if it has none; a call recalculates each descendant once.", "quantifier": "every history of calls, every tree, every addition of coordinates", "why_tests_cant": "unbounded trees and histories; the number of recalculations doubles with every level", "anchors": ["sample/ui_object.cpp:77-81", "sample/ui_object.cpp:175-189", "sample/ui_object.hpp:141-150"]}
{"id": "C69", "title": "A mouse press goes to the topmost object that takes it", "statement": "Objects are drawn parents first, siblings in the order they were attached, hidden objects left out with everything below them; a mouse press goes to the last drawn of the objects that take it, and to none exactly if no drawn object takes it.", "quantifier": "every history of calls on the tree, every tree, every set of objects that take the press", "why_tests_cant": "unbounded trees and histories; the walks use three different sets of links", "anchors": ["sample/ui_container.cpp:239-278", "sample/ui_object.cpp:136-153", "sample/ui_object.cpp:191-202", "sample/ui_object.hpp:105-161"]}
{"id": "C70", "title": "The click count is the number of quick clicks at the same place", "statement": "After every history of presses on a text box, the click count is the number of presses before the last one that follow each other at the same place within half a second, so that the second quick click selects a word and the third a line.", "quantifier": "every history of presses, every place and time", "why_tests_cant": "unbounded histories; all times", "anchors": ["sample/ui_container.cpp:335-384", "sample/text_box.cpp:18-53"]}
{"id": "C71", "title": "Mouse enter and leave notifications alternate", "statement": "Every object is notified alternately of the mouse entering and leaving it, and the last notification is that the mouse has entered exactly if the object is the one found under the mouse.", "quantifier": "every history of mouse moves and destroyed objects", "why_tests_cant": "unbounded histories", "anchors": ["sample/ui_container.cpp:293-319"]}
{"id": "C72", "title": "Built layouts are what the queries ask for", "statement": "The layout build_layout_info makes for a text consists of lines with at least one run; inside a run glyph positions never decrease and characters follow the direction, the glyph of the first character being where the direction starts; runs of a line abut; no run ends behind the text. So every click on every line gives a position in the text, and in left-to-right text Home, End and clicks give positions that are resolved to the very line.", "quantifier": "every text, every segmentation into paragraphs, fonts, directions and line breaks, every shaping that places glyphs forward, every line and horizontal position", "why_tests_cant": "composes shaping, line breaking, bidi reordering and the queries over unbounded texts", "anchors": ["src/layout_builder.cpp:159-241 build_layout_info", "src/layout_builder.cpp:243-375 build_paragraph", "src/layout_info.cpp:86-312"]}
{"id": "C73", "title": "Glyphs stand where HarfBuzz puts them", "statement": "Each glyph of a run shaped by HarfBuzz stands at the pen position (the sum of the advances before it) moved by its own offsets, upward offsets raising it, and what follows the run starts at the pen position behind it.", "quantifier": "every shaping result: any number of glyphs, any advances and offsets, both directions", "why_tests_cant": "offsets of the first glyph and across the line are zero in simple scripts; the sums range over unbounded glyph lists", "anchors": ["src/layout_builder.cpp:446-490 shape_logical_run", "src/layout_builder.cpp:577-631 append_visual_run"]}
{"id": "C74", "title": "Small caps glyphs belong to the characters they come from", "statement": "For synthesised small caps, where the upper case form of the text is shaped, every glyph is recorded with the index of the character whose upper case form it shows.", "quantifier": "every text, every upper case conversion, every glyph", "why_tests_cant": "upper case forms of another length in UTF-8 are rare; the index arithmetic is right for all ASCII text", "anchors": ["src/layout_builder.cpp:395-427 shape_logical_run", "src/layout_builder.cpp:701-731 remap_char_index, remap_char_indices"]}
{"id": "C75", "title": "Drawing into a bitmap changes exactly the rectangle drawn", "statement": "fill_rect, blit and blit_alpha change exactly the pixels of the bitmap that lie in the rectangle asked for, each to the value asked for (the pixel of the source at the same place for blit), and access no memory outside of the bitmaps, wherever the rectangle lies.", "quantifier": "every bitmap size, rectangle and position", "why_tests_cant": "positions left of, above and right of the bitmap and wrap-around of 32-bit arithmetic are corner cases; sizes are unbounded", "anchors": ["sample/bitmap.cpp:26-74 fill_rect, blit, blit_alpha"]}
{"id": "C76", "title": "Blending interpolates colours and keeps opacity", "statement": "Blending a colour over another gives channels between those of the two, the source if it is opaque and the destination if it is transparent; an opaque destination stays opaque.", "quantifier": "every pair of colours", "why_tests_cant": "channels are continuous; tests look at opaque and transparent colours only", "anchors": ["src/color.hpp:53-55 blend", "sample/bitmap.cpp:56-74 blit_alpha"]}
{"id": "C77", "title": "Shown text is the source without its tags", "statement": "The text shown for markup is the source with bytes left out: none is added, changed or moved, it is never longer than the source, and if the source is valid UTF-8 the text is valid UTF-8, so no character is torn apart.", "quantifier": "every markup text, every font, colour and stroke, every colour and font the registry resolves", "why_tests_cant": "a torn character needs a tag next to a multi-byte character in an unusual nesting; tests look at the shown text of few documents", "anchors": ["src/formatting.cpp:126-156 parse_inline_formatting, get_result", "src/formatting.cpp:180-247 parse_content, parse_open_bracket, parse_comment"]}
{"id": "C78", "title": "Editing never tears a character apart", "statement": "After every sequence of mouse, keyboard and clipboard inputs to a text box whose text is valid UTF-8 the text is valid UTF-8, and neither cursor nor selection is inside a character.", "quantifier": "every text, every sequence of inputs, every layout and break iterator that treats characters as units", "why_tests_cant": "a torn character shows up only where multi-byte characters, an unusual cursor position and a following edit come together", "anchors": ["sample/text_box.cpp:171-457 movement, editing, clipboard, recalc_text", "sample/text_box.cpp:466-469 set_text", "src/cursor_controller.cpp:45-132", "src/layout_info.cpp:207-312 find_closest_cursor_position"]}
{"id": "C79", "title": "HarfBuzz measures at the size that is set", "statement": "Whenever a font is used for shaping, the advances HarfBuzz gets are those of the FreeType face at the size it was asked for last, not ones cached at another size; and the scale HarfBuzz applies to kerning and offsets is the scale of that size.", "quantifier": "every sequence of font requests and shaped texts, all sizes, every cache that does not make up values", "why_tests_cant": "a stale cache needs a particular order of sizes and glyphs that collide in the cache", "anchors": ["src/harfbuzz_font.cpp:127-140 harfbuzz_font_mark_changed", "src/harfbuzz_font.cpp:322-374 hb_ft_get_glyph_h_advances", "src/font_registry.cpp:70-151 FontRegistry::get_font_data", "src/font_registry.cpp:249-315"]}
{"id": "C80", "title": "Advances are rounded to the nearest 64th of a pixel", "statement": "The horizontal advance given to HarfBuzz is FreeType’s 16.16 advance rounded to the nearest 26.6 value (halves up), the vertical advance its negative rounded the same way, without undefined conversions.", "quantifier": "every advance FreeType can return, every scale", "why_tests_cant": "rounding errors appear only for wide glyphs and single values", "anchors": ["src/harfbuzz_font.cpp:322-374", "src/harfbuzz_font.cpp:376-407"]}
{"id": "C81", "title": "Strokes get the style of the glyph they surround", "statement": "If bold or italic is made up for a face that lacks it, the outline of a glyph and the stroke drawn around it get the same emboldening and shearing.", "quantifier": "every glyph, size, weight, style, stroke thickness and every previous use of the glyph slot", "why_tests_cant": "depends on fonts that lack a bold face, and the stroke alone looks plausible", "anchors": ["src/font_data.cpp:138-168 rasterize_glyph_outline", "src/font_data.cpp:194-241", "src/font_data.cpp:249-290 try_apply_synthetics"]}
{"id": "C82", "title": "A made-up weight is on the right side of the weight it is made of", "statement": "If the weight asked for is heavier than that of the face the outline gets thicker, if it is lighter it gets thinner; every weight has an amount.", "quantifier": "all pairs of weights", "why_tests_cant": "all pairs of weights would have to be rendered and compared", "anchors": ["src/font_data.cpp:13-25 BOLD_SCALE", "src/font_data.cpp:249-290"]}
{"id": "C83", "title": "Outlines in font units do not depend on the pixel size", "statement": "The curves of a glyph or stroke in font units are the same whatever pixel size was set before.", "quantifier": "every glyph, weight, style and pair of sizes", "why_tests_cant": "two requests at different sizes between which the size changes are needed", "anchors": ["src/font_data.cpp:194-241", "src/font_data.cpp:249-290"]}
{"id": "C84", "title": "A JSON document registers exactly the family it describes", "statement": "A document is accepted exactly if it is an object with a name and well-formed faces (name, file, weight from 100 to 900 in hundreds, style), scripts and family lists; the family registered has exactly these; any other document is rejected with INVALID_JSON and leaves the registry as it was. A directory is registered in order up to the first error.", "quantifier": "every JSON value, every registry reached by registrations, every library", "why_tests_cant": "the space of documents is infinite; malformed ones are rarely written", "anchors": ["src/font_registry_json.cpp:14-25 register_families_from_path", "src/font_registry_json.cpp:33-176 register_family_from_json_data"]}
{"id": "C85", "title": "A distance field shape has the contours of its outline", "statement": "The shape handed to msdfgen has, apart from empty ones, exactly the contours of the FreeType outline in order, each with its edges; lines of no length are left out.", "quantifier": "every outline: any number of contours and segments", "why_tests_cant": "outlines are unbounded; merged contours still look right in many glyphs", "anchors": ["sample/msdf_text_atlas.cpp:231-251 load_msdf_shape", "sample/msdf_text_atlas.cpp:319-357 msdf_move_to and others"]}
{"id": "C86", "title": "Distance field bitmaps have room for the shape and put its points where they belong", "statement": "The bitmap made for a shape contains all of it with at least a pixel and a half to spare, and drawn with the offset and size returned every point of the outline appears at its coordinates times pixels per em over units per em.", "quantifier": "all bounds, units per em and sizes", "why_tests_cant": "an offset wrong by a fraction of a pixel is hard to see", "anchors": ["sample/msdf_text_atlas.cpp:257-283", "sample/msdf_text_atlas.cpp:45-86 get_glyph_info"]}
{"id": "C87", "title": "The distance field atlas answers for the font asked", "statement": "After every history of requests, the answer for a glyph or stroke is the bitmap of that glyph in that font, scaled to the size of the font and moved to its baseline, in a place inside a page.", "quantifier": "every sequence of requests, all fonts and glyphs", "why_tests_cant": "needs two requests that share a key, with fonts that lack a style", "anchors": ["sample/msdf_text_atlas.cpp:45-117", "sample/msdf_text_atlas.cpp:148-158 handle_rasterization", "sample/msdf_text_atlas.cpp:187-212"]}
{"id": "C88", "title": "The size of a layout is bounded by the size of the text", "statement": "If HarfBuzz makes at most k glyphs per byte, the layout of a text of n bytes has at most k*n glyphs and n+1 runs, and exactly two position numbers for each glyph and each run; so its 32-bit indices suffice for texts with 2(k+1)(n+1) < 2^32.", "quantifier": "every text, every division into paragraphs and calls, every k", "why_tests_cant": "needs texts of gigabytes", "anchors": ["src/layout_builder.cpp:159-241 build_layout_info", "src/layout_info.cpp:32-90", "src/layout_info.hpp VisualRunInfo"]}
{"id": "C89", "title": "The text box works on top of the parser and the layout builder", "statement": "Assuming only contracts of third-party libraries and a bound on the text, what the parser and the layout builder hand to the text box is what its properties (C52-C54, C64, C65) ask for; recalc_text does not depend on the layout it overwrites; and every allowed history of inputs to a new box is defined with cursor and selection inside the text.", "quantifier": "every text, every history of inputs, every layout overwritten", "why_tests_cant": "joins four modules whose contracts would have to be tested together on unbounded texts", "anchors": ["sample/text_box.cpp:420-457 recalc_text", "src/formatting.cpp:109-131", "src/layout_builder.cpp:159-241"]}
{"id": "C90", "title": "Each byte of a text is shaped with the formatting and level it has", "statement": "The run iterators, which build_layout_info carries from one paragraph to the next, reach every paragraph; the calls for one ascend to its end, and the call that covers a byte carries the values the run lists give that byte, and its bidi level. For a document of the markup grammar these are the font, small capitals, subscript and superscript of the tags around the byte.", "quantifier": "every number of iterators, every run lists up to the length of the text, every division into paragraphs, every document", "why_tests_cant": "run ends and paragraph ends interleave in unboundedly many ways", "anchors": ["src/layout_builder.cpp:159-241 build_layout_info", "src/layout_builder.cpp:243-276 build_paragraph", "src/value_runs_iterator.hpp:19-60 ValueRunsIterator, MaybeDefaultRunsIterator"]}
{"id": "C91", "title": "The text box with parser, run iterators, script runs and builder rests on library contracts only", "statement": "From the contracts of SheenBidi, ICU, HarfBuzz and the font registry alone, the paragraphs and calls that the run iterators make are what layout asks for, so histories of inputs are defined with the cursor inside the text (C52); and in the runs laid out for a document each byte has the face that the registry gives for the formatting of its tags, and the size of its tags.", "quantifier": "every text, document, history of inputs", "why_tests_cant": "joins six modules on unbounded texts", "anchors": ["src/layout_builder.cpp:159-276", "src/formatting.cpp:109-131", "sample/text_box.cpp:420-457 recalc_text", "src/font_registry.cpp:468-548 get_sub_font"]}
{"id": "C92", "title": "Font files stay mapped while their faces are registered, and are given back exactly once", "statement": "Registering faces, with whatever reallocations of the vector that holds them, never unmaps a file of a registered face, so pointers into it stay valid until the program ends; then every mapping is given back exactly once, with the functions that made it, and nothing stays in use that was not before.", "quantifier": "every sequence of registrations with any answers of the operating system and any growth of the vector; every pair of mapping functions that own what they map", "why_tests_cant": "moves and destructions of a growing vector, and failures in the middle of a mapping, are not observable in the results of calls", "anchors": ["src/file_mapping.cpp:16-155 map_file_default, unmap_file_default", "src/font_registry.cpp:29-52 FaceData", "src/font_registry.cpp:405-407 set_file_mapping_functions", "src/font_registry.cpp:562-577 get_or_add_face"]}
{"id": "C93", "title": "Building a layout in float gives the layout of exact arithmetic", "statement": "With font metrics and an area height that are multiples of 1/64 pixel, the layout that is computed with binary32 arithmetic, every operation rounded, is exactly the layout of exact arithmetic as long as no position exceeds 262144 pixels and no height 131072; with any metrics everything but the vertical positions is still exact, line i is off by at most (3i+1)/256 pixels and the start of the text by (3n+6)/256 for n lines.", "quantifier": "every paragraph list, shaping result, alignment and area height within the bounds; number of lines and glyphs unbounded", "why_tests_cant": "rounding errors accumulate over lines and only show for particular metrics; a test sees one sum", "anchors": ["src/layout_builder.cpp:212-231 build_layout_info", "src/layout_builder.cpp:571 compute_line_visual_runs", "src/layout_builder.cpp:601-626 append_visual_run", "src/layout_info.cpp:56-105 append_line, append_empty_line, set_text_start_y"]}
{"id": "C94", "title": "Lines, offsets, selections and the caret in float", "statement": "For a layout as the builder makes it (numbers that are multiples of 1/64 below 32768 pixels), binary32 arithmetic gives exactly the line starts and baselines of exact arithmetic; cursor offsets are exact between clusters, within 5/512 pixels inside of ligatures, never out of order and never outside of the run; selections stay ordered, abut without gap or overlap; the caret has the exact line, top and height, and its x is off by at most 1/64 pixel.", "quantifier": "every layout within the bounds, every run, cursor, range, alignment and area width; text below 2^24 characters for the error bounds", "why_tests_cant": "float rounding shows only for particular widths and ligatures; monotonicity is a relation between all pairs of cursors", "anchors": ["src/layout_info.hpp:205-225 for_each_line", "src/layout_info.cpp:96-109 calc_cursor_pixel_pos", "src/layout_info.cpp:192-205 get_line_x_start", "src/layout_info.cpp:320-344 get_position_range_in_run", "src/layout_info.cpp:467-523 get_glyph_offset_ltr, get_glyph_offset_rtl"]}
{"id": "C95", "title": "Hit testing in float", "statement": "In binary32 arithmetic a point still selects a position of a run of the line, for every point and with no access out of range, and the selected grapheme boundary is the nearest of the clicked cluster up to 1/32 pixel.", "quantifier": "every layout as in C94, line, point, alignment and grapheme boundaries", "why_tests_cant": "the position of a boundary, the point and both distances are rounded before they are compared; ties and DONE (uint32 -1) need particular inputs", "anchors": ["src/layout_info.cpp:207-312 find_closest_cursor_position"]}
{"id": "C96", "title": "Menus of the tool bar", "statement": "Menus lie side by side without gap or overlap and items below each other in their tray; no event moves them. At most one menu is open, exactly the one whose title was pressed or moved over last, and its tray is what is visible; pressing a visible item, and nothing else, toggles it together with the setting it stands for; the item below the mouse is the highlighted one.", "quantifier": "every list of menus and items, every sequence of mouse moves, presses and window sizes", "why_tests_cant": "which menu is open depends on the whole sequence of moves and presses; titles share their edges, so only particular points go wrong", "anchors": ["sample/tool_bar.cpp:14-95", "sample/tool_bar_menu.cpp:19-105", "sample/tool_bar_menu_item.cpp:19-88", "sample/ui_object.cpp is_mouse_inside", "sample/ui_container.cpp:250-333"]}
{"id": "C97", "title": "The tool bar above the text box", "statement": "Whatever the user does with mouse and keys in the window, the text box sees only inputs for which nothing undefined happens, its cursor and selection stay inside of the text; text is selected by dragging only while the button is down; keys go to the text box that has the focus; presses go to what is shown at that place; the text box lies inside of the window.", "quantifier": "every sequence of mouse moves, presses, releases, keys and characters, every window size", "why_tests_cant": "it depends on which of several objects swallows the press and which the release, after any history", "anchors": ["sample/main.cpp:62-190 set up, on_resize", "sample/ui_container.cpp:250-333 handle_mouse_button, handle_key_press, handle_mouse_move, handle_text_input", "sample/tool_bar_menu.cpp:37-61 handle_mouse_button", "sample/tool_bar_menu_item.cpp handle_mouse_button"]}
{"id": "C98", "title": "Selected text is white on its highlight", "statement": "Behind the selected part of every run of text, and behind nothing else, a highlight of the height of its line is drawn before all text. Of glyphs, lines below and through the text the part in front of the highlight is white and the rest has the color of the text; nothing of the text is left out, moved or drawn twice; without selection everything has the color of the text.", "quantifier": "every layout, formatting, selection (in either direction), alignment and place of the text", "why_tests_cant": "where glyphs are cut depends on fractions of pixels, on the alignment and on the direction of the runs", "anchors": ["sample/ui_container.cpp:73-193 draw_text", "sample/ui_container.cpp:16-71 emit_rect", "src/text_draw_util.hpp", "src/layout_info.cpp get_position_range_in_run"]}
{"id": "C99", "title": "A click on the caret does not move it", "statement": "For every cursor position, a click at the place where its caret is drawn gives a cursor whose caret is drawn at the same place of the same line; and the same position, if every glyph has a width.", "quantifier": "every layout of left-to-right text, every grapheme boundary with either affinity, every alignment and width", "why_tests_cant": "two searches and two interpolations, written separately for drawing and for clicks, have to be inverse to each other at every boundary; ties are resolved by affinities that depend on the neighbouring runs and lines", "anchors": ["src/layout_info.cpp:96-109 calc_cursor_pixel_pos", "src/layout_info.cpp find_closest_cursor_position", "src/layout_info.cpp get_glyph_offset_ltr, get_run_containing_cursor"]}
{"id": "C100", "title": "Font objects are freed once", "statement": "Whatever fonts a thread asks for: FreeType faces, HarfBuzz fonts, faces and blobs and the data of the callbacks are used only while they exist; moving the owners into the cache frees nothing; when the thread ends each of them is freed, once, before the library.", "quantifier": "every sequence of requests, files that are fonts or not, every order in which the cache is emptied", "why_tests_cant": "use after free and double frees depend on the order of destructors and on moves that usually go unnoticed; leaks are not seen by tests at all", "anchors": ["src/harfbuzz_font.cpp:121-129 harfbuzz_font_create", "src/harfbuzz_font.cpp:186-220 harfbuzz_face_create, harfbuzz_font_destroy, set_font_funcs", "src/font_registry.cpp:70-165 FontDataOwner, FontContext", "src/font_registry.cpp:249-315 get_font_data"]}
{"id": "C101", "title": "What the font tells HarfBuzz", "statement": "Characters are mapped to the same glyphs in one call for many as one by one, and has_codepoint agrees with map_codepoint_to_glyph; a glyph found by name has that name and every name is found; the extents contain the glyph, also slanted; contour points are those of the outline.", "quantifier": "every font (character map, names, metrics), text, name of any length, slant", "why_tests_cant": "depends on fonts with unusual maps and names", "anchors": ["src/harfbuzz_font.cpp:249-306 nominal glyphs", "src/harfbuzz_font.cpp:462-534 glyph extents", "src/harfbuzz_font.cpp:536-557 contour point", "src/harfbuzz_font.cpp:572-599 glyph from name", "src/font_data.cpp:69-80"]}
{"id": "C102", "title": "Same layout as the earlier builder", "statement": "For the same text, fonts and libraries, LayoutBuilder and the earlier builder of the regression test (test/build_layout_info_utf8.cpp) give the same layout.", "quantifier": "every text of any number of paragraphs, lines and runs, every answer of the libraries within their contracts", "why_tests_cant": "the regression test compares them on a few strings in one font and three widths", "anchors": ["test/build_layout_info_utf8.cpp:85-273 build_layout_info_utf8, build_sub_paragraph", "test/build_layout_info_utf8.cpp:400-636 shape_logical_run, compute_line_visual_runs, append_visual_run", "src/layout_builder.cpp:130-620", "test/test_layout_info.cpp:83-141"]}
{"id": "C103", "title": "Library objects live long enough and are given back", "statement": "Break iterators and buffers owned by cursor controllers and layout builders are freed exactly once however the owners are moved; objects of SheenBidi and ICU made while a layout is built are used only while they exist and are given back; the text a cursor controller refers to exists when it is read.", "quantifier": "every history of constructing, moving, using and destroying owners; every text and number of paragraphs, fonts and lines; every history of setting text and font of a text box", "why_tests_cant": "leaks and reads of freed or uninitialised memory do not change results most of the time", "anchors": ["src/cursor_controller.cpp:17-43", "src/layout_builder.cpp:100-134 constructors, destructor, move", "src/layout_builder.cpp:159-241, 258-372, 490-575 objects of SheenBidi and ICU", "src/font_registry.cpp:389-403 get_sub_font", "sample/text_box.cpp:420-469 recalc_text, set_font, set_text"]}
{"id": "C104", "title": "Widths and positions stay in the range of int32_t", "statement": "The sums of glyph advances, the tab stops and the positions across the line that the layout builder keeps in int32_t (1/64 pixel) do not overflow, so that what it computes is what the model with unbounded integers computes.", "quantifier": "every text, every font, all HarfBuzz results, tab widths and text area widths; no bound on the number of glyphs, lines and paragraphs", "why_tests_cant": "an overflow needs lines of millions of glyphs, blanks or nested tab stops; signed overflow is undefined, the results tests would see are those of one compiler", "anchors": ["src/layout_builder.cpp:95-98 mul_fixed", "src/layout_builder.cpp:446-490 shape_logical_run", "src/layout_builder.cpp:310-372 line loop", "src/layout_builder.cpp:577-631 append_visual_run", "src/layout_builder.cpp:633-648 apply_tab_widths_no_line_break"]}
{"id": "C105", "title": "Drawing glyphs and strokes gives back what it takes from FreeType", "statement": "Every FreeType object used to draw a glyph or the stroke around it exists while it is used (also the data handed to the caller, while it has it), is given back once, and none is left behind.", "quantifier": "every history of requests for glyphs, curves and strokes of any faces, every result of FreeType, every functor", "why_tests_cant": "a leak shows in no result; failures of FreeType need damaged or bitmap fonts; tests run neither leak checkers nor such fonts", "anchors": ["src/font_data.hpp:83-122 rasterize_glyph, rasterize_glyph_outline, load_glyph_curve, load_glyph_outline_curve", "src/font_data.cpp:102-187 rasterize_glyph_internal, rasterize_outline_internal, rasterize_outline_finish", "src/font_data.cpp:189-248 load_glyph_curve_internal, load_outline_curve_internal, outline_curve_finish"]}
{"id": "C106", "title": "A line is as high as the size of its font", "statement": "A line of text in one font is as high as the font size, in whole pixels; raising or lowering the text does not change the height of the line.", "quantifier": "every face with numbers in the range of a font file, every size below 65536, every combination of synthetic features, every line of a layout in one font", "why_tests_cant": "tests use one font at one size and compare layouts with each other, never with the size asked for", "anchors": ["src/font_data.cpp:37-45 get_ascent, get_descent", "src/font_registry.cpp:253-292 get_font_data (FT_Request_Size)", "src/layout_builder.cpp:516-524, 547-555 maximum ascent and descent of a line", "src/font_common.hpp:88-106"]}
{"id": "C107", "title": "Raised and lowered text stays in its line", "statement": "The text of a font, with the offset its glyphs are drawn with, reaches neither above nor below the line that the layout makes for it.", "quantifier": "every face with numbers in the range of a font file, every size below 65536, superscript and subscript, alone and next to plain text", "why_tests_cant": "tests do not draw and do not use synthetic superscripts; the error is a few pixels at the edge of a line", "anchors": ["src/font_common.hpp:88-115 calc_baseline_offset and constants", "src/font.hpp:91-94 get_baseline_offset", "src/font_data.cpp:37-45", "sample/text_atlas.cpp:33,53,66,86"]}
{"id": "C108", "title": "Underlines and strikethroughs are where the font says", "statement": "Underline and strikethrough are drawn at the position and with the width the face gives, scaled like the text and moved with it.", "quantifier": "every face with numbers in the range of a font file, every size below 65536, every combination of synthetic features", "why_tests_cant": "tests do not draw; positions need the tables of a font as reference", "anchors": ["src/font_data.cpp:90-104 get_underline_position etc.", "src/font_data.cpp:59-67 get_scale_x, get_scale_y", "src/font_registry.cpp:294-297", "src/text_draw_util.hpp:72-110"]}
{"id": "C109", "title": "Every rectangle is drawn with its own state", "statement": "Every rectangle is drawn, in order, with its own pipeline, the texture of its own image, its own extents, texture coordinates and colour, and the size of the window at its frame, although the container sets only what it remembers as different and the atlases bind textures of new pages in between.", "quantifier": "every sequence of frames and of drawing steps (rectangles, glyphs, strokes), every answer of the rasteriser, every initial state of OpenGL", "why_tests_cant": "tests do not open a window; a stale binding shows only after particular sequences of textures and new pages", "anchors": ["sample/ui_container.cpp:16-134 emit_rect, draw_rect_internal", "sample/pipeline.cpp:18-88", "sample/image.cpp:5-60", "sample/text_atlas.cpp:160-180", "sample/msdf_text_atlas.cpp", "sample/main.cpp:100-125"]}
{"id": "C110", "title": "Rectangles cover their pixels once, glyphs show their bitmaps", "statement": "A rectangle covers each pixel between its rounded corners exactly once, whole or divided by a selection; a glyph, selected in part or not, shows the texels of its bitmap unchanged and no other texel; every decoration is seen.", "quantifier": "every rectangle and position in exact arithmetic, every size of the window, every pixel, every selection, every rule for centres on edges that OpenGL allows", "why_tests_cant": "needs a GPU and a comparison of pixels; depends on fractional positions", "anchors": ["sample/rect_shader.hpp:5-40", "sample/ui_container.cpp:16-65 emit_rect", "sample/image.cpp:5-19", "sample/text_atlas.cpp:128-175", "src/text_draw_util.hpp:72-110"]}
{"id": "C111", "title": "The MSDF shader draws outlines", "statement": "The opacity of a fragment of the MSDF pipeline is defined, between 0 and 1, 1/2 on the outline, and grows with the signed distance; it depends only on the bitmap of its glyph.", "quantifier": "every three channels, every derivative, every rectangle and pixel in exact arithmetic", "why_tests_cant": "needs a GPU; undefined results of smoothstep differ between drivers", "anchors": ["sample/msdf_shader.hpp:5-51", "sample/image.cpp:5-19", "sample/msdf_text_atlas.cpp"]}
{"id": "C112", "title": "OpenGL objects have one owner and are deleted once", "statement": "Compiling a program deletes nothing twice and leaves nothing behind if a shader or the program fails. While frames run, the vertex arrays, programs and textures are exactly those held by pipelines and atlases, each held once. At the end of main everything has been deleted once, nothing was used after it was deleted, and the owners hold nothing when the context goes.", "quantifier": "every outcome of compiling and linking each program, every sequence of bound pipelines and new pages, every valid state of the objects", "why_tests_cant": "needs a driver that fails on purpose; leaked or twice deleted names are not visible on the screen", "anchors": ["sample/pipeline.cpp:18-67", "sample/pipeline.cpp:90-157", "sample/image.cpp:5-48", "sample/text_atlas.cpp:17-22", "sample/text_atlas.cpp:160-175", "sample/main.cpp:73-125"]}
{"id": "C113", "title": "The window fits its objects and its pointer", "statement": "After every resize the tool bar covers the top of the window, the text box lies inside the window below it with 10 pixels around it and its text is broken at its width, and what is drawn under the pointer is the point the handlers are given.", "quantifier": "every sequence of sizes of the framebuffer, every position of the pointer, every content scale", "why_tests_cant": "tests open no window; needs displays with other content scales", "anchors": ["sample/main.cpp:23-26", "sample/main.cpp:79-100", "sample/main.cpp:130-186", "sample/tool_bar.cpp:9-14", "sample/rect_shader.hpp:16-20", "src/layout_builder.cpp:185", "src/layout_builder.cpp:290-297"]}
{"id": "C114", "title": "The caret blinks and is shown after it moved", "statement": "The caret of a box with the focus is shown in every second half of a second since it was moved last, and for good after five seconds, however time is divided into frames; it is shown at once after every input that moves it.", "quantifier": "every sequence of inputs and of times between frames (exact arithmetic), every text, layout and break iterator", "why_tests_cant": "depends on the times of frames; only seen on the screen", "anchors": ["sample/text_box.cpp:181-205", "sample/text_box.cpp:267-283", "sample/text_box.cpp:374-418"]}
{"id": "C115", "title": "Layouts of UTF-16 text become layouts of UTF-8 text", "statement": "The index of a character in the UTF-16 form of a text is turned into its index in the UTF-8 form and back, and a layout of the UTF-16 text into the same layout of the UTF-8 text, with indices of the same characters.", "quantifier": "every string of Unicode characters, every index, every stored layout whose indices are those of characters", "why_tests_cant": "the comparison of the layout builders in the tests rests on these functions, which are tested only through it", "anchors": ["test/utf_conversion_util.hpp:6-42", "test/convert_layout_info_utf8.cpp:15-61"]}
{"id": "C116", "title": "Files are read whole and whole documents reach the JSON parser", "statement": "A file is read byte by byte as it is and closed, a missing one gives no bytes; the document of a file, or of the memory that is given with its padding, reaches the JSON parser as it is, and no memory outside of the buffer is read.", "quantifier": "every content, every answer of the C library, every parser, every memory around the view", "why_tests_cant": "needs failing disks, pipes, zero bytes and memory behind the buffer; the tests read two good files", "anchors": ["src/file_read_bytes.hpp:8-24", "src/font_registry_json.cpp:27-36", "src/font_registry.hpp:102-111"]}
{"id": "C117", "title": "Marked-up text is drawn with every glyph once, in the colours of its tags", "statement": "For every document of the grammar: parsing, laying out and drawing it is defined, and draws every glyph that shaping returned exactly once, with its number, in the font it was shaped with, in the colour and outline that the tags around its character give; parts that are shaped at once have one formatting.", "quantifier": "every document, every answer of SheenBidi, HarfBuzz and the font registry that meets their contracts, every width and alignment, every layout overwritten", "why_tests_cant": "goes through all stages at once: markup, runs, paragraphs, shaping, line breaks, reordering, drawing; a test looks at a picture of one text", "anchors": ["src/formatting.cpp:100-330", "src/layout_builder.cpp:159-490", "src/text_draw_util.hpp:1-120", "src/formatting_iterator.cpp:9-78"]}
{"id": "C118", "title": "HarfBuzz is asked for the text of each run with its surroundings and features", "statement": "For every run of a paragraph: HarfBuzz gets exactly the bytes of the run with their index in the run as cluster, the rest of the paragraph before and behind it as context, direction and script of the run, and is told whether the paragraph begins or ends there; all runs together give it every byte of the paragraph once; each feature (small caps, subscript, superscript) is on for a character just if its font asks for it and it is not made up otherwise; nothing outside of the paragraph is read; if HarfBuzz keeps clusters, glyphs belong to bytes of their run in order.", "quantifier": "every paragraph in every text, every cut into runs, every font, script and direction, every conversion to upper case", "why_tests_cant": "the context only shows in cursive scripts at the boundaries of runs; tests compare layouts of a few strings built by code that makes the same calls", "anchors": ["src/layout_builder.cpp:377-427", "src/layout_builder.cpp:688-699", "src/font_registry.cpp:468-548"]}
{"id": "C119", "title": "The font registry can be used by several threads", "statement": "When any number of threads call the functions of the registry, each access to its variables and each operation on its mutex being a step that other threads can come between: no two threads access a variable at the same time unless both read; the calls of all threads take effect one after the other, each as a whole and between its beginning and its end, with the results the calls have on their own; if the mutex lets readers in whenever nobody writes, the threads do not block each other and all calls end. Programs that call the functions with the arguments these ask for, relying only on the answers of their own earlier calls, have no undefined behaviour, whatever the other threads register in between.", "quantifier": "every number of threads, every program of calls that depend on earlier results, every interleaving of their steps, every registry", "why_tests_cant": "the interleavings of a few calls are already too many to enumerate and the harmful ones are rare; no test of the project uses two threads", "anchors": ["src/font_registry.cpp:171-177", "src/font_registry.cpp:203-315", "src/font_registry.cpp:317-387", "src/font_registry.cpp:468-640"]}
{"id": "C120", "title": "Paragraphs are shaped with the fonts of the registry", "statement": "In any thread and after any history of registrations and font requests, the calls that shape a paragraph are all made, read nothing outside of the text, and have the result of shaping each part with the font a fresh thread would choose for it, with the file of its face, at its size and with the scale set: an environment that keeps the contracts the layout properties rest on. What the thread has done before does not change glyphs, characters, secondary positions or fonts, nor widths in text without tabs.", "quantifier": "every registry reached, every thread history, every text, every list of calls, every answer of ICU, FreeType and HarfBuzz within their contracts", "why_tests_cant": "the state of the cache of a thread depends on all earlier requests; each test starts in a fresh state", "anchors": ["src/layout_builder.cpp:258-283", "src/layout_builder.cpp:377-490", "src/font_registry.cpp:244-315", "src/font_registry.cpp:317-387"]}
{"id": "C121", "title": "Both builders find the same runs", "statement": "The earlier builder of the regression test cuts a paragraph into logical runs that end where an answer of get_sub_font ends or the level changes, each with the level and script of its bytes and the font get_sub_font gives for the longest text with the same font, script and flags; these are the parts that LayoutBuilder shapes, so that both builders give the same layout from the text on.", "quantifier": "every text, every run list of formatting, every list of levels, every text of scripts, every font registry that makes progress", "why_tests_cant": "the regression test has one font and mostly one direction; what the runs are is never looked at", "anchors": ["test/build_layout_info_utf8.cpp:47-54", "test/build_layout_info_utf8.cpp:106-190", "test/build_layout_info_utf8.cpp:275-323", "src/layout_builder.cpp:193-283", "src/font_registry.cpp:468-548"]}
{"id": "C122", "title": "A thread lays a text out as the builder does", "statement": "build_layout_info, run by a thread with any history of fonts, lays a text out with the fonts of the registry: every piece of text is shaped by HarfBuzz with the file and at the size of the font that get_sub_font gives in a fresh thread, lines have the ascents and descents of those files at those sizes although all fonts of a face share one FT_Face, empty lines have the default font, and the layout is that of libraries which keep the contracts of the builder, so that from markup to the glyphs drawn each character appears in its own style; in text without tabs the layout does not depend on the history of the thread.", "quantifier": "every registry history, every thread history, every text and run list, every answer of HarfBuzz, ICU and SheenBidi within their contracts", "why_tests_cant": "needs faces that are shared and resized between shaping, measuring lines and empty lines, in all orders, for all histories of a thread", "anchors": ["src/layout_builder.cpp:159-241", "src/layout_builder.cpp:243-375", "src/layout_builder.cpp:377-490", "src/layout_builder.cpp:492-575", "src/font_registry.cpp:116-135", "src/font_registry.cpp:223-234", "src/font_registry.cpp:468-548", "src/font_data.cpp:37-45", "sample/text_box.cpp:440-454"]}
{"id": "C123", "title": "A text box works in a thread with any history of fonts", "statement": "A text box of the sample that is made in a thread with any history of fonts gets a text and then any sequence of key presses, typed characters, clipboard operations, clicks and changes of focus: recalc_text, which loads fonts, resizes shared faces and remembers the advance of their blanks on the way, is always defined, the handlers go through the same states as a text box over libraries that keep their contracts and know no threads, and cursor and selection stay inside the text.", "quantifier": "every registry history, every thread history, every text, every sequence of inputs, every answer of HarfBuzz, ICU and SheenBidi within their contracts", "why_tests_cant": "each input may lay the text out again with faces that earlier inputs loaded and resized; histories of threads and of inputs are unbounded", "anchors": ["sample/text_box.cpp:64-152", "sample/text_box.cpp:207-260", "sample/text_box.cpp:285-469", "src/layout_builder.cpp:159-241", "src/font_registry.cpp:236-242", "src/font_registry.cpp:468-548"]}
{"id": "C124", "title": "for_each_glyph hands out every glyph of the layout once, with its place, its character and the font of its run", "statement": "On every layout that stores lines of runs, and so on every layout the builder leaves, for_each_glyph is defined and calls its functor once per glyph, line by line and run by run, with the glyph, its character, its position in the line, the font of its run and the place of the line for the alignment. The calls are the glyphs that draw_text draws. The expression for the font, *run.pFont, names a member that VisualRun does not have; the property is about run.font.", "quantifier": "all layouts that store lines of runs, all fonts, widths and alignments; all texts through the builder", "why_tests_cant": "The template has no caller and does not compile once it has one.", "anchors": ["src/layout_info.hpp:227-243", "src/layout_info.hpp:176-183"]}
{"id": "C125", "title": "The layout builder gives the layout of the UTF-16 builder of the tests", "statement": "build_layout_info_icu splits a text at exactly the separators (carriage return with line feed as one). If the text is horizontal, without tabs, without glyph offsets in height, and both builders shape the same parts, then whatever layout it makes is the one LayoutBuilder makes, whatever layout is overwritten; and it makes one if no two glyphs of a part belong to one cluster and every right-to-left run begins with a cluster. Without these it reads past its vectors, or misses breaks in front of surrogate pairs.", "quantifier": "all paragraphs, all texts, all library results within the contracts, all area widths and heights, all previous layouts", "why_tests_cant": "The tests compare the builders on some thirty strings with one font; clusters with several glyphs in narrow areas, surrogates at breaks and ligatures at the ends of lines are not among them.", "anchors": ["test/build_layout_info_icu.cpp:90-257", "test/build_layout_info_icu.cpp:313-546", "test/test_layout_info.cpp:136-149", "src/layout_builder.cpp:159-575"]}
{"id": "C126", "title": "The extents, vertical origins and kerning that HarfBuzz is told are FreeType's", "statement": "For every face and size, hb_ft_get_font_h_extents gives the ascender and the descender of the face scaled to the size, to 3/4 of a 64th of a pixel, with a sum that is the size to one 64th, and a gap with which the three add up to the scaled height of the face. The ascent and the descent the layout uses are these rounded outwards by less than a pixel, and the lines of plain text are higher by at most one pixel and a 64th. hb_ft_get_glyph_v_origin gives the origin at which the box of the glyph has its vertical bearings. Kerning is FreeType's without fitting to the grid, none on an error.", "quantifier": "all faces with the numbers of a font file, all sizes below 65536, all bearings, all answers of FT_Get_Kerning", "why_tests_cant": "No test asks HarfBuzz for extents or origins; the layout reads the metrics of FreeType and never compares.", "anchors": ["src/harfbuzz_font.cpp:601-638", "src/harfbuzz_font.cpp:409-446", "src/harfbuzz_font.cpp:448-460", "src/font_data.cpp:37-45"]}
{"id": "C127", "title": "Debug outlines frame runs and glyphs, and text drawn at once shows all its glyphs", "statement": "For every layout the builder can store, showRunOutlines draws one outline per run, line by line, from the first position of the run to its end and as high as its line; in a line the outlines adjoin without gaps and end where the line ends. showGlyphBoundaries draws a mark at each glyph and at the end of each run. No read leaves a vector. draw_text_immediate is defined in a thread with any font history, draws every glyph HarfBuzz returned exactly once in a font equal to the one it was shaped with, and nothing for the empty text.", "quantifier": "all layouts with runs of fewer than 2^31 glyphs, all alignments and widths; all texts, fonts, thread histories, areas", "why_tests_cant": "The outlines are drawn on a screen no test looks at, and draw_text_immediate is called only by the tool bar with fixed English texts.", "anchors": ["sample/ui_container.cpp:195-219", "sample/ui_container.cpp:222-237"]}
{"id": "C128", "title": "The tool bar shows its state, in its own pixels, and what is seen takes the press", "statement": "For every list of menus and every history of mouse events as in C96, what the tool bar draws depends on which menu is open, on the settings and on the mouse only: the open menu is marked and its tray shown and no other; with all menus closed the title under the mouse is marked; items under the mouse are highlighted, items whose setting is on are ticked. Titles have no pixel in common, the fill and the translucent border of a title neither; trays have a border of one pixel and rows two pixels inside of it; nothing is drawn elsewhere. A press in the middle of a pixel reaches an item or a title exactly if the pixel is one of those it is marked with. The texts stay inside of their rows.", "quantifier": "all menus, names and numbers of items, all sequences of moves, presses and resizes, all pixels", "why_tests_cant": "Nothing in the project looks at what the sample draws; the sample has two menus.", "anchors": ["sample/tool_bar.cpp:58-62", "sample/tool_bar_menu.cpp:61-82", "sample/tool_bar_menu_item.cpp:33-56", "sample/frame.cpp:9-14", "sample/ui_object.cpp:199-210"]}
{"id": "C129", "title": "Lines are as long as they can be, and as few", "statement": "For every paragraph, also with tabs, every area width and every set of break opportunities: if the text from the start of a line up to an opportunity fits (tabs set to the next tab stop from the start of the line, white space and control characters at its end not counted), the line reaches at least that far. If the paragraph can be broken at opportunities into lines that all fit, then every line the builder makes ends at an opportunity and fits, and there are at most as many lines as in any other such division. For the whole build_paragraph: the number of lines it appends is the least possible. With tab stops in blanks this asks for an opportunity behind each tab (with only hanging characters in between) and for one glyph in the cluster in front of it; otherwise it does not hold.", "quantifier": "all paragraphs, glyph widths not below zero, tab stops in pixels or blanks, break opportunities, hanging characters, area widths; all divisions into lines it is compared with", "why_tests_cant": "The tests compare two builders that break lines in the same way, on fixed strings; that no other division of a text has fewer lines is a statement over all divisions.", "anchors": ["src/layout_builder.cpp:298-371", "src/layout_builder.cpp:669-686", "src/layout_builder.cpp:243-375"]}
{"id": "C130", "title": "What the LayoutEx builder of the tests records, and the base directions of all builders", "statement": "For every text and every answer of ICU LayoutEx that holds each character of a paragraph once: build_layout_info_icu_lx lays the text out, stores exactly the lines of LayoutEx (fonts, directions, glyphs that are not deleted with characters and positions, ends), the runs with the separators hold each character of the text once, an empty paragraph gets one empty line. The heights of lines are those of the fonts (holds for whole numbers only). All builders give a paragraph the same base direction for the same flags (does not hold: the override flag has no effect in the builders of the tests, and without the right-to-left flag the LayoutEx builder gives all paragraphs the direction of the first one that is not empty).", "quantifier": "all UTF-16 texts, flags, paragraphs, lines, runs, glyphs, metrics and answers of LayoutEx, first strong characters of all paragraphs", "why_tests_cant": "The tests compare the layouts of single-direction strings without flags; agreement on directions depends on the paragraph order and the flags, coverage on every division LayoutEx may return.", "anchors": ["test/build_layout_info_lx.cpp:132-281", "test/build_layout_info_lx.cpp:75-81", "test/build_layout_info_icu.cpp:106-111", "test/build_layout_info_utf8.cpp:100-101", "src/layout_builder.cpp:174-183"]}
{"id": "C131", "title": "Text in a wider area takes no more lines and, in one size, is no higher", "statement": "For every paragraph, also with tabs, whose glyphs have no negative width and every two widths of the text area above zero: in the wider area the paragraph has at most as many lines, the i-th line starts and ends no earlier, and every character stays on its line or moves to an earlier one, also where lines are broken inside words; so a text of any paragraphs never gets more lines when its area is made wider. (For widths below a 64th of a pixel it does not hold: they count as no width, that is, no line breaking; nor, with tab stops in blanks, for a tab without an opportunity behind it, as in front of a comma.) If all fonts of the text have one ascent and descent, its height is that of a line for each line, and no larger in a wider area. (In two sizes it may be: a line break moved can put large characters on two lines.)", "quantifier": "all texts, answers of the shaper and the break iterator, pairs of widths, layouts overwritten, lines and characters", "why_tests_cant": "The tests lay texts out at a few fixed widths and compare builders with each other; whether greedy breaking is monotone depends on every break opportunity, hanging space and forced break of every pair of widths.", "anchors": ["src/layout_builder.cpp:159-241", "src/layout_builder.cpp:291-375"]}
{"id": "C132", "title": "Font tables are read whole and given back", "statement": "For every font and every sequence of requests for its tables: a table has the bytes it has in the font, with its length, or there is none; the callback that reads tables from a FreeType face frees its buffer exactly once whatever allocation or read fails, and each blob owns its own; and every blob obtained for a table is given back, so that after the font is gone nothing is left. (The last does not hold for the font instance of the LayoutEx builder: every table found leaves a blob, and the blob of the file with it.)", "quantifier": "all fonts, table directories, sequences of tags, failing allocations and reads, orders of destruction", "why_tests_cant": "The tests compare layouts; neither a leaked reference nor a failing read or allocation shows there.", "anchors": ["src/harfbuzz_font.cpp:222-247", "test/build_layout_info_lx.cpp:28-39"]}
{"id": "C133", "title": "Font instances outlive their use by LayoutEx", "statement": "For every text, its paragraphs, the fonts of each and the sub-fonts LayoutEx asks for: each pointer to a font instance the LayoutEx builder gives out can be used until the runs of its paragraph have been recorded, and then leads to the sub-font chosen for the font of that run; no instance is deleted twice and none is left when the function returns.", "quantifier": "all sequences of paragraphs, numbers of fonts, requests for sub-fonts and choices of them", "why_tests_cant": "A pointer into a vector that has moved, or an instance deleted early, mostly still reads the right value in a test; the address sanitizer is not part of the tests.", "anchors": ["test/build_layout_info_lx.cpp:94-124", "test/build_layout_info_lx.cpp:132-190", "test/build_layout_info_lx.cpp:274-276"]}
{"id": "C134", "title": "Up, Down, Home and End walk through the lines", "statement": "For every text box with the focus that shows lines as the layout builder makes them, and every sequence of Up, Down, Home and End, with or without Shift: nothing undefined happens, text and layout stay, and the caret is on the line the keys stand for: one line up or down for each Up or Down as long as there is one, the same line for Home and End. So every line is reached from every other, and as many Ups as Downs lead back to the line. (Does not hold for right-to-left text: Up may leave the caret where it is for ever. And the way back leads to the line, not to the place in it.)", "quantifier": "all lines, caret positions, widths of characters, alignments and sequences of keys of any length", "why_tests_cant": "The tests have no text box; whether a key moves to the right line depends on widths, on where soft breaks are and on the affinity of the position, and errors add up over sequences.", "anchors": ["sample/text_box.cpp:229-251", "sample/text_box.cpp:267-283", "src/layout_info.cpp:96-155", "src/layout_info.cpp:207-260", "src/cursor_controller.cpp:118-121"]}
{"id": "C135", "title": "An edit changes the lines of the paragraphs edited only", "statement": "For every text and every edit of some of its paragraphs (typing, deleting, splitting, joining, adding, removing paragraphs): laid out anew, the lines of the paragraphs in front of the edited ones are exactly what they were, with their runs, glyphs, positions, heights and character numbers; and the lines of the paragraphs behind are what they were, with all character numbers moved by the same amount. In particular the numbers of runs, glyphs and lines before, which the builder uses as indices, do not influence what it appends.", "quantifier": "all texts, numbers and lengths of paragraphs, fonts, scripts, directions, tabs, widths of the area, contents of the layout before", "why_tests_cant": "Tests compare whole layouts of fixed texts; that what is computed for one paragraph depends on no other is a statement about pairs of runs for all texts.", "anchors": ["src/layout_builder.cpp:159-241", "src/layout_builder.cpp:243-375", "src/layout_builder.cpp:492-631"]}
{"id": "C136", "title": "What is typed can be taken back, and what is deleted typed again", "statement": "In a text box that is being edited, with nothing selected: characters typed are taken back by as many Backspaces, after which text, cursor, clipboard and layout are what they were. What Backspace or Ctrl+Backspace removed can be typed again, after which text, cursor and layout are what they were. Selecting backwards (or forwards) with Shift and an arrow key and removing the selection is the same as Backspace (or Delete), in everything.", "quantifier": "all texts, cursor positions, typed characters and numbers of them, break iterators and layouts, plain text and the source of rich text", "why_tests_cant": "A test types one text; that two sequences of inputs lead to the same state is a statement about all states, and depends on how ICU joins what was typed with what is there.", "anchors": ["sample/text_box.cpp:213-227", "sample/text_box.cpp:267-321", "sample/text_box.cpp:374-418", "src/cursor_controller.cpp:45-116"]}
{"id": "C137", "title": "Breaking a paragraph into lines takes a number of steps proportional to its length", "statement": "Over all lines of a paragraph together, the loop that adds up glyph widths runs at most three times for each glyph (twice if no two glyphs belong to one cluster), the loop that forces a break at most once for each glyph and once for each line, the loop that places the tabs behind it at most once for each glyph and twice for each line, and the loop that lets white space and control characters hang at most once for each byte of the paragraph.", "quantifier": "all paragraphs, glyph lists sorted by character, widths, break opportunities, areas and tab widths", "why_tests_cant": "A test measures the time for a few texts; the bound is about all of them, and one family of paragraphs for which it fails is enough to stall the program.", "anchors": ["src/layout_builder.cpp:310-372", "src/layout_builder.cpp:669-686"]}
{"id": "C138", "title": "Which formatted texts can be written as markup", "statement": "Every text, with any formatting of its characters that tags can ask for (a family that has a name, one of the nine weights, italic, any size, any opaque colour, an outline of any colour, opacity, thickness up to 255 and one of the three joins, and any of the five flags turned on), is what the parser shows for some markup; and the parser shows nothing else, except text that it gives back verbatim.", "quantifier": "all texts, all formattings of their bytes, all base formattings, fonts and float implementations", "why_tests_cant": "A test writes some markup and looks at the result; that for every wanted result there is markup, and for no other, quantifies over all results.", "anchors": ["src/formatting.cpp:135-800"]}
{"id": "C139", "title": "Editing the source of a document beside what is shown edits what is shown", "statement": "The bytes shown for a document are bytes of its source, at increasing places. Whatever markup is put in the place of one of them is shown in its place, inside the formatting it has, and everything else is shown as before: characters typed in front of or behind a shown character get its formatting, and a shown character deleted from the source is deleted from what is shown.", "quantifier": "all documents, all shown bytes, all markup put in their place, all base formattings, fonts and float implementations", "why_tests_cant": "It relates two runs of the parser, on a source and on the edited source, for every document, place and inserted markup; a test compares a few pairs.", "anchors": ["src/formatting.cpp:135-800"]}
{"id": "C140", "title": "Editing the source of a rich text edits what is shown", "statement": "In an editable box of rich text whose source is a document, with the cursor in the source in front of or behind a byte that is shown, any sequence of characters other than < is typed and the box then loses the focus. Nothing undefined happens, and the box shows what the document showed with the typed characters in that place, in the formatting of that byte; its layout is the one the layout builder builds for this text and formatting. And where a character of the source that is shown is removed with Backspace and the box then loses the focus, it shows what the document showed without this character.", "quantifier": "all documents, cursor positions beside shown bytes, sequences of typed characters, sizes, libraries meeting their contract", "why_tests_cant": "It composes the text box, the parser and the layout builder over every source and every typed sequence; the sample has no tests, and a UI test types a few strings.", "anchors": ["sample/text_box.cpp:13-179", "sample/text_box.cpp:374-457", "src/formatting.cpp:135-800", "src/layout_builder.cpp:159-241"]}
{"id": "C141", "title": "What a text box draws depends on its text, not on its history", "statement": "After any setter and any sequence of inputs that is defined, the content, the formatting, the layout and the place of the caret a text box keeps are those computed from nothing from its text, the way it is read and its cursor; so two boxes that agree in these, in the selection and in the state of the caret draw the same frame. The text of a frame is drawn without an invalid access exactly if every run of the layout is looked up inside the text. Then a frame without a selection is what the calls of C15 and C16 paint, followed, while the box has the focus and the caret is in the lit half of its blinking, by a rectangle one pixel wide where the cursor is. When the text becomes empty the next frame should draw no text.", "quantifier": "all states of the box, setters, sequences of inputs, texts, formattings, libraries meeting their contract, places of the box, pictures in the atlas", "why_tests_cant": "It is an invariant of every handler over all sequences of inputs, and it relates what recalc_text leaves behind to what render reads later; the sample has no tests, and a picture taken after a few inputs does not compare histories.", "anchors": ["sample/text_box.cpp:13-179", "sample/text_box.cpp:192-205", "sample/text_box.cpp:374-457", "sample/ui_container.cpp:99-193", "src/formatting_iterator.cpp:9-17"]}
{"id": "C142", "title": "What is highlighted is what Copy copies", "statement": "In a focused text box that shows its text as it is, with a selection neither of whose ends lies inside a cluster of glyphs, Copy puts exactly the bytes between the ends of the selection on the clipboard (if the text has no NUL), and in every run of the layout, left to right or right to left, the glyphs of exactly these bytes lie on the rectangles drawn behind the selection, while all other glyphs lie beside them.", "quantifier": "all texts, layouts the builder makes of them, selections in both directions, alignments, places of the box, libraries meeting their contract", "why_tests_cant": "Two functions that do not know of each other, one on bytes and one on positions found by binary search in either direction, have to agree for every text, layout and selection; a test compares a few selections in a few texts.", "anchors": ["sample/text_box.cpp:346-363", "sample/ui_container.cpp:99-127", "src/layout_info.cpp:314-339"]}
{"id": "C143", "title": "From the keys pressed to the glyphs drawn", "statement": "Characters are typed into a focused text box of rich text, anywhere in its source, and the box is left. If the source is then a document of the markup that shows something, the box shows what the document shows. Drawing it is defined exactly if every run of the layout is looked up inside the text. If it is defined, every glyph HarfBuzz returned for the parts of the paragraphs is drawn once, in the colour and with the outline of the tags around its character, and no other glyph is drawn.", "quantifier": "all states of a text box being edited, sequences of typed characters, documents, libraries meeting their contract, fonts, widths, alignments", "why_tests_cant": "The chain runs through the input handling, the UTF-8 encoding, the parser, the layout builder and the drawing code. A test shows a few documents typed in one way; whether a glyph is lost, repeated or given the style of a neighbour depends on the text, the tags and the lines.", "anchors": ["sample/text_box.cpp:162-206", "sample/text_box.cpp:374-459", "src/formatting.cpp:180-556", "src/layout_builder.cpp:159-490", "src/text_draw_util.hpp:1-120"]}
{"id": "C144", "title": "What the pointer is drawn over is copied, and replaced by what is typed", "statement": "The mouse button is pressed once in a focused text box, the pointer moved along any way, and the button released. Copy then puts exactly the bytes between the place pressed and the place of the release on the clipboard, whichever comes first. Characters typed instead replace these bytes, and if the two places are the same, are inserted there, none of them lost.", "quantifier": "all states of a focused box that is sound, all points pressed and released at, all sequences of moves between, all typed characters, libraries meeting their contract", "why_tests_cant": "The result must not depend on the way the pointer takes, on the direction, on the affinity of the cursor or on the number of characters typed; a test draws the pointer along a few ways.", "anchors": ["sample/text_box.cpp:13-62", "sample/text_box.cpp:154-169", "sample/text_box.cpp:261-283", "sample/text_box.cpp:346-418"]}
{"id": "C145", "title": "Text moved with the pointer and the clipboard is neither lost nor changed", "statement": "In a focused text box a stretch of text is selected with the pointer, cut, and pasted where the pointer clicks next. Then the stretch stands at that place, the rest of the text is as it was, no byte is lost, added or changed, and the cursor is inside the text.", "quantifier": "all sound states of a focused box, all points, ways of the pointer, texts without NUL, libraries meeting their contract", "why_tests_cant": "Three places, found by hit tests in two different layouts, and the clipboard take part; that the bytes are preserved for every choice of the places is not visible from a few runs.", "anchors": ["sample/text_box.cpp:13-62", "sample/text_box.cpp:154-160", "sample/text_box.cpp:261-283", "sample/text_box.cpp:337-418"]}
{"id": "C146", "title": "Pasting a text does the same as typing it", "statement": "Pasting a text that is not empty into a focused, editable text box, over the selection or at the cursor, leaves the box in the same state as typing the characters of that text one after the other.", "quantifier": "all sound states, all clipboard texts that are encodings of characters, all libraries meeting their contract", "why_tests_cant": "The two ways go through different code, rebuild the layout once or once per character, and must agree on text, cursor, layout and caret after every history.", "anchors": ["sample/text_box.cpp:154-160", "sample/text_box.cpp:261-283", "sample/text_box.cpp:337-418"]}
{"id": "C147", "title": "A second click selects the word, a third the line", "statement": "In a focused text box a second quick click on a word selects that word, with the white space up to the next word or the end of the line, and a third one selects the line under the pointer from its start to its end.", "quantifier": "all sound states, all points, texts, grapheme boundaries, libraries meeting their contract", "why_tests_cant": "Hit test, word search in both directions and the caret's line take part; which of the places of a word fail is a statement about every text.", "anchors": ["sample/text_box.cpp:13-62", "src/cursor_controller.cpp:61-132", "sample/text_box.cpp:213-283"]}
{"id": "C148", "title": "Text cut or copied and pasted at once is as it was", "statement": "If something is selected in a text box that is being edited, Cut followed by Paste and Copy followed by Paste both leave the text and its layout as they were, nothing selected, and the cursor at the end of what was selected.", "quantifier": "all sound states with a selection, forwards or backwards, up to the whole text; all libraries meeting their contract", "why_tests_cant": "The text goes through the clipboard, is removed and inserted, and the layout is rebuilt up to twice, once possibly for an empty text; equality of the whole states is about every text and selection.", "anchors": ["sample/text_box.cpp:154-160", "sample/text_box.cpp:337-418"]}
{"id": "C149", "title": "Ctrl+Left and Ctrl+Right walk from word to word", "statement": "In a focused text box Ctrl+Right from a grapheme boundary before a word, pressed often enough, stops at the start of that word, and Ctrl+Left from a place behind its start does so too: no word is passed over. With Shift what was passed is selected from where it was begun. At the start of a word, Ctrl+Right and Ctrl+Left, and Ctrl+Left and Ctrl+Right unless the text starts there, come back to it.", "quantifier": "all sound states, texts, grapheme boundaries, words, libraries meeting their contract", "why_tests_cant": "The two searches are written differently (one looks at the white space it leaves, the other at the one it reaches); that they stop at the same places is about every text.", "anchors": ["src/cursor_controller.cpp:61-116", "sample/text_box.cpp:213-283"]}
{"id": "C150", "title": "Typing after a double click on a word replaces that word only", "statement": "In a text box that is being edited a second quick click on a word and characters typed then replace that word by those characters and leave the rest of the text as it was.", "quantifier": "all sound states, texts, grapheme boundaries, words, points, characters, libraries meeting their contract", "why_tests_cant": "What is lost depends on what follows the word in the text; the cases are told apart only by a statement about every text.", "anchors": ["sample/text_box.cpp:13-62", "src/cursor_controller.cpp:61-116", "sample/text_box.cpp:374-418"]}
{"id": "C151", "title": "Quick clicks at one point select the word, the line and the whole text in turn", "statement": "Of mouse clicks at one point of a text box, each at most half a second after the one before, the first puts the caret there and selects nothing, the second selects the word, the third the line, the fourth the whole text, the fifth is like the first, and so on; clicks at different points do not count as one another's repetition, and the text is left as it is.", "quantifier": "all sound states, texts, points, numbers of clicks and times, earlier clicks the container remembers, libraries meeting their contract", "why_tests_cant": "The count is kept by the container, the place by the box, and each click changes the selection the next one starts from; a test tries a few clicks on one text.", "anchors": ["sample/text_box.cpp:18-58", "sample/ui_container.cpp:335-384", "sample/ui_container.hpp:60"]}
{"id": "C152", "title": "What several clicks selected stays selected until something else is done", "statement": "The word, line or text that several clicks in a text box select stays selected when the button is released and when the pointer moves a little within it, before or after the release.", "quantifier": "all sound states, texts, points, numbers of clicks, sequences of pointer movements, libraries meeting their contract", "why_tests_cant": "A test sends a press and a release; a real pointer moves between the two by an amount that depends on the hand, and what is lost depends on the text.", "anchors": ["sample/text_box.cpp:13-62", "sample/text_box.cpp:154-160"]}
{"id": "C153", "title": "What is typed after a click stands at the place clicked", "statement": "A click into an editable text box, be it the one that gives the box its focus, and characters typed then: the characters stand at the place of the text under the pointer, and the rest of the text shown is as it was.", "quantifier": "all states a box can be in with text in it, points, character sequences, libraries meeting their contract", "why_tests_cant": "The click may lay the text out again, give the focus and change from formatted text to its source; the three orders of these can only be covered together by a statement about every state.", "anchors": ["sample/text_box.cpp:13-62", "sample/text_box.cpp:171-173", "sample/text_box.cpp:261-283", "sample/text_box.cpp:374-396", "sample/ui_container.cpp:335-345"]}
{"id": "C154", "title": "Clicks with shift select from the caret to the place clicked", "statement": "In a text box with nothing selected, clicks with shift held down select what is between the place of the caret before them and the place clicked last; Copy copies that, and characters typed replace it.", "quantifier": "all sound states, texts, carets, numbers and points of clicks with shift, character sequences, libraries meeting their contract", "why_tests_cant": "The anchor has to survive any number of clicks, on either side of it, and coming back to it; tests try one click on one side.", "anchors": ["sample/text_box.cpp:13-62", "sample/text_box.cpp:261-283", "sample/text_box.cpp:346-418"]}
{"id": "C155", "title": "Selecting everything and typing leaves what was typed and nothing else", "statement": "In a text box that is being edited, Ctrl+A and characters typed leave a text that consists of these characters alone; the same holds with Backspace, Delete or Cut between the two, after which the text is empty, with the caret at its start and nothing selected.", "quantifier": "all states of a box with text that is being edited, all character sequences, all three keys with and without Ctrl, libraries meeting their contract", "why_tests_cant": "The old layout stays when the text becomes empty, so that the result depends on what was there before; a test tries one text.", "anchors": ["sample/text_box.cpp:64-152", "sample/text_box.cpp:285-321", "sample/text_box.cpp:346-418", "sample/text_box.cpp:420-457"]}
{"id": "C156", "title": "A text box with a single line has no line break in its text", "statement": "Whatever the user does, each byte of the text of a box was in the text or the clipboard before, belongs to a character typed, or comes from Tab or, in a box with several lines, from Enter; so a box with a single line never gets a line break.", "quantifier": "all texts, states, sets of bytes and sequences of inputs, every layout and locale library", "why_tests_cant": "There is no place that checks the text: every input that writes to it has to be followed, in every order; a test tries some.", "anchors": ["sample/text_box.cpp:64-152", "sample/text_box.cpp:285-372", "sample/text_box.cpp:374-457"]}
{"id": "C157", "title": "The clipboard holds what was selected when something was last copied or cut", "statement": "Only Copy and Cut with something selected change the clipboard; afterwards, whatever is typed, clicked, moved or deleted, it holds the bytes that were selected then, and Paste inserts them at the caret.", "quantifier": "all states, all sequences of inputs before and after, every layout and locale library", "why_tests_cant": "What is between copying and pasting can be any number of inputs of any kind, in any order; a test tries some.", "anchors": ["sample/text_box.cpp:13-179", "sample/text_box.cpp:285-457"]}
{"id": "C158", "title": "Keys with shift select what they go over", "statement": "With shift held down, Up, Down, Left, Right, Home and End, with and without Ctrl, take the caret to the same place as without, and select from where it was before the first of them; Copy copies and typing replaces what is between the two.", "quantifier": "all states of a focused box with text, all sequences of these keys, all character sequences, libraries meeting their contract", "why_tests_cant": "The keys can be mixed in any order and go back and forth over the start; that shift never changes where a key goes compares two executions.", "anchors": ["sample/text_box.cpp:64-152", "sample/text_box.cpp:213-283", "sample/text_box.cpp:346-363", "sample/text_box.cpp:374-418"]}
{"id": "C159", "title": "A text box keeps its place while another one has the focus", "statement": "What is typed after a box lost the focus and got it again, with any inputs in between that do not give it the focus, stands where the caret was; what was selected is left alone, and with nothing selected the text is the one typed without a break.", "quantifier": "all states of a box that is being edited, plain and rich, all inputs in between, all character sequences, libraries meeting their contract", "why_tests_cant": "A rich text is shown without its tags in between, with another string, layout and caret; a test tries one text.", "anchors": ["sample/text_box.cpp:13-179", "sample/text_box.cpp:374-396", "sample/text_box.cpp:420-457", "sample/ui_container.cpp:335-351"]}
{"id": "C160", "title": "Ctrl+Home and Ctrl+End reach both ends of the text", "statement": "In a box with text that is being edited, what is typed after Ctrl+Home stands before the whole text, and after Ctrl+End behind it, whatever was selected; with shift as well, Backspace, Delete and Cut then remove all that is before the caret, or all that is behind it.", "quantifier": "all states of a box with text that is being edited, plain and rich, all character sequences, all three keys, libraries meeting their contract", "why_tests_cant": "The end of the text is taken from the string shown, not from the text; whether both agree depends on everything done before.", "anchors": ["sample/text_box.cpp:64-152", "sample/text_box.cpp:253-321", "sample/text_box.cpp:337-344", "sample/text_box.cpp:374-457"]}
{"id": "C161", "title": "Home and Shift+End select the line", "statement": "After any sequence of Up, Down, Home and End, Home and then End with shift select the line these keys lead to, from its first to its last character; Backspace, Delete or Cut then remove the characters of that line and no others.", "quantifier": "all lines, caret positions, widths, alignments, sequences of keys of any length, all three keys that remove", "why_tests_cant": "The line is found again from the caret after each key, by position and affinity; at soft line breaks two lines share a position. A test tries some lines.", "anchors": ["sample/text_box.cpp:64-152", "sample/text_box.cpp:229-251", "sample/text_box.cpp:267-321", "sample/text_box.cpp:404-418"]}
{"id": "C162", "title": "Left and Right reach every place between two characters", "statement": "From the caret to any character boundary before it Left has to be pressed as often as there are boundaries between, and Right to any boundary behind it, no more and no less; what is typed then stands there, and nothing but the caret and the selection changes on the way.", "quantifier": "all states of a focused box with text, all boundaries, any number of key presses, with and without shift, libraries meeting their contract", "why_tests_cant": "Characters have any number of bytes and boundaries any distance; a test tries a few texts and places.", "anchors": ["sample/text_box.cpp:64-152", "sample/text_box.cpp:213-219", "sample/text_box.cpp:267-283", "src/cursor_controller.cpp:45-59"]}
