{
 "claims": [
  {
   "property": "C01",
   "status": "proved",
   "theorems": [
    "RichText.C01_get_value",
    "RichText.C01_get_value_defined",
    "RichText.C01_run_index",
    "RichText.C01_past_end"
   ],
   "note": "All run lists with non-decreasing limits; undefined accesses are none."
  },
  {
   "property": "C02",
   "status": "proved",
   "theorems": [
    "RichText.C02_packed_bool",
    "RichText.C02_read_back"
   ],
   "note": "The packed container's view equals the generic one for limits in [0, 2^31)."
  },
  {
   "property": "C03",
   "status": "proved",
   "theorems": [
    "RichText.C03_subset"
   ],
   "note": "length > 0; for length = 0 the code adds a run of limit 0 or nothing."
  },
  {
   "property": "C04",
   "status": "proved",
   "theorems": [
    "RichText.C04_intersections",
    "RichText.C04_empty"
   ],
   "note": "Any number of containers with a common end; the fuel is shown to suffice."
  },
  {
   "property": "C05",
   "status": "partial",
   "theorems": [
    "RichText.C05_advance_exact",
    "RichText.C05_advance_value",
    "RichText.C05_advance_past_end_violated",
    "RichText.C05_out_of_range_violated",
    "RichText.C05_iterators_partial"
   ],
   "note": "Violated: at the end of the text advance_to reads one run past the end. Proved: exact condition for safety, and that every callback before that is right."
  },
  {
   "property": "C06",
   "status": "proved",
   "theorems": [
    "RichText.C06_builder"
   ],
   "note": "Any nesting of regions; structural induction over the document."
  },
  {
   "property": "C07",
   "status": "proved",
   "theorems": [
    "RichText.C07_returns",
    "RichText.C07_runs_fit"
   ],
   "note": "Unbounded text; the fuel text.length+1 is shown never to run out. Base font assembled from enumerators (ProperFont). Overruns of C12 are the only other outcome."
  },
  {
   "property": "C08",
   "status": "partial",
   "theorems": [
    "RichText.C08_fallback_partial"
   ],
   "note": "Missing: texts on which the code overruns a local buffer (Safe fails), where behaviour is undefined (C12)."
  },
  {
   "property": "C09",
   "status": "proved",
   "theorems": [
    "RichText.C09_plain"
   ],
   "note": "All byte strings without '<' and 0xFF."
  },
  {
   "property": "C10",
   "status": "proved",
   "theorems": [
    "RichText.C10_documents",
    "RichText.C10_unambiguous"
   ],
   "note": "Grammar Spec.Content, any nesting. The grammar is also shown unambiguous. Family lookup and float parsing are arbitrary functions."
  },
  {
   "property": "C11",
   "status": "proved",
   "theorems": [
    "RichText.C11_only_documents",
    "RichText.C11_well_formed"
   ],
   "note": "Converse of C10: everything not returned verbatim is a document and its result is the content."
  },
  {
   "property": "C12",
   "status": "partial",
   "theorems": [
    "RichText.C12_weight_buffer_violated",
    "RichText.C12_number_buffer_violated",
    "RichText.C12_no_overrun_partial"
   ],
   "note": "Violated twice: weight values above 16 bytes, three-digit rgb channels. Proved: a syntactic condition that excludes both implies no overrun."
  },
  {
   "property": "C13",
   "status": "proved",
   "theorems": [
    "RichText.C13_iterator_history",
    "RichText.C13_inside"
   ],
   "note": "Any formatting with non-decreasing limits (boolean limits below 2^31), constructed at a covered index, any sequence of indices."
  },
  {
   "property": "C14",
   "status": "partial",
   "theorems": [
    "RichText.C14_defined_iff_partial",
    "RichText.C14_rtl_violated",
    "RichText.C14_trailing_line_violated"
   ],
   "note": "Violated: a right-to-left run that ends the text, and the run of an empty last line, are looked up one past the formatting (C14_rtl_violated, C14_trailing_line_violated). C14_defined_iff_partial gives exactly when drawing is defined."
  },
  {
   "property": "C15",
   "status": "partial",
   "theorems": [
    "RichText.C15_covered",
    "RichText.C15_exact_partial",
    "RichText.C15_violated"
   ],
   "note": "Violated when a decoration begins together with a colour change: the END branch of the colour change draws a rectangle over the undecorated glyphs before (C15_violated). C15_covered holds without restriction; C15_exact_partial gives exactly one rectangle of the right place, thickness and colour per decorated glyph and none elsewhere otherwise."
  },
  {
   "property": "C16",
   "status": "proved",
   "theorems": [
    "RichText.C16_draw_order",
    "RichText.C16_glyphs",
    "RichText.C16_plain",
    "RichText.C16_places"
   ],
   "note": "Both draw_text overloads; under the condition of C14 for the formatted one. Positions are exact rationals."
  },
  {
   "property": "C17",
   "status": "proved",
   "theorems": [
    "RichText.C17_set_position",
    "RichText.C17_set_affinity",
    "RichText.C17_position_range",
    "RichText.C17_valid",
    "RichText.C17_eq_iff"
   ],
   "note": "All positions in [0, 2^31) and both affinities; the invalid value is position 2^31-1 with opposite affinity, stated exactly."
  },
  {
   "property": "C18",
   "status": "proved",
   "theorems": [
    "RichText.C18_face_getters",
    "RichText.C18_face_injective",
    "RichText.C18_face_valid",
    "RichText.C18_font"
   ],
   "note": "All families, weights below 16 (every enumerator), styles and sizes."
  },
  {
   "property": "C19",
   "status": "proved",
   "theorems": [
    "RichText.C19_stores",
    "RichText.C19_consistent",
    "RichText.C19_addresses"
   ],
   "note": "Any sequence of building calls that follows the protocol (Draft.steps defined); refinement to a list of lines of runs of glyphs."
  },
  {
   "property": "C20",
   "status": "proved",
   "theorems": [
    "RichText.C20_line_height",
    "RichText.C20_text_height",
    "RichText.C20_for_each_line",
    "RichText.C20_text_width"
   ],
   "note": "All stored layouts; heights, baselines and starts as exact rationals."
  },
  {
   "property": "C21",
   "status": "partial",
   "theorems": [
    "RichText.C21_past_end_violated",
    "RichText.C21_start_violated",
    "RichText.C21_line_partial"
   ],
   "note": "Violated: below the text the line count is returned, and the text start is ignored. Proved for heights relative to the text start."
  },
  {
   "property": "C22",
   "status": "partial",
   "theorems": [
    "RichText.C22_rtl_violated",
    "RichText.C22_direction_violated",
    "RichText.C22_line_number",
    "RichText.C22_inside_partial",
    "RichText.C22_contiguous_partial"
   ],
   "note": "Violated for right-to-left runs. Proved: the line number always belongs to the run; positions strictly inside a run; all positions when runs are stored in logical order without change of direction at line ends."
  },
  {
   "property": "C23",
   "status": "partial",
   "theorems": [
    "RichText.C23_rtl_home_violated",
    "RichText.C23_in_line",
    "RichText.C23_ltr_bounds",
    "RichText.C23_resolve_partial"
   ],
   "note": "Violated for right-to-left lines. Proved: positions belong to the line; lowest start and highest end; resolving back for left-to-right text."
  },
  {
   "property": "C24",
   "status": "partial",
   "theorems": [
    "RichText.C24_ltr_exact",
    "RichText.C24_ltr_interpolates",
    "RichText.C24_ltr_monotone",
    "RichText.C24_rtl_exact",
    "RichText.C24_rtl_interpolates",
    "RichText.C24_rtl_antitone",
    "RichText.C24_cluster_violated",
    "RichText.C24_separator_violated"
   ],
   "note": "Exactness, interpolation and monotonicity proved for left-to-right and right-to-left runs with sorted characters and monotone positions. Violated for clusters of several glyphs (only the last glyph is divided) and between the CR and LF of a separator (unsigned wrap-around)."
  },
  {
   "property": "C25",
   "status": "proved",
   "theorems": [
    "RichText.C25_ordered",
    "RichText.C25_full",
    "RichText.C25_abut",
    "RichText.C25_widths",
    "RichText.C25_contains"
   ],
   "note": "Ordered, full, abutting, additive and contained, for both directions."
  },
  {
   "property": "C26",
   "status": "partial",
   "theorems": [
    "RichText.C26_straddle_violated",
    "RichText.C26_in_line_partial",
    "RichText.C26_ltr_nearest",
    "RichText.C26_rtl_nearest"
   ],
   "note": "In the line whenever run ends are grapheme boundaries (partial), nearest boundary in the clicked cluster for both directions. Violated when a grapheme cluster reaches over a forced line break."
  },
  {
   "property": "C27",
   "status": "proved",
   "theorems": [
    "RichText.C27_horizontal",
    "RichText.C27_vertical"
   ],
   "note": "All lines not wider than the area and texts not higher; exact rationals."
  },
  {
   "property": "C28",
   "status": "proved",
   "theorems": [
    "RichText.C28_terminates",
    "RichText.C28_partition",
    "RichText.C28_defined"
   ],
   "note": "All widths (zero and negative included) and all results of the break iterator up to the paragraph length. Definedness is shown for paragraphs without tabs, with a non-zero tab width in pixels, or with tab stops in multiples (1.0 or above) of a blank if the glyphs of tabs are wider than zero; for other tab settings the tab code may divide by zero (C33)."
  },
  {
   "property": "C29",
   "status": "proved",
   "theorems": [
    "RichText.C29_only_space_hangs"
   ],
   "note": "Every line of a tab-free paragraph: either it ends at a break opportunity and only white space or control characters follow the first overflowing glyph, or no break opportunity lies between the line start and the first non-space character from there on, and then the end of the line is given too."
  },
  {
   "property": "C30",
   "status": "proved",
   "theorems": [
    "RichText.C30_line"
   ],
   "note": "Bidi runs of the line are a parameter required to partition it (contract of SheenBidi). Logical runs satisfying LogicalRuns are what shaping produces (C31_paragraph)."
  },
  {
   "property": "C31",
   "status": "proved",
   "theorems": [
    "RichText.C31_lines",
    "RichText.C31_paragraph"
   ],
   "note": "C31_lines for any shaped paragraph with sorted characters; C31_paragraph derives that from the contracts of the font registry (get_sub_font moves forward and stays in the limit), HarfBuzz (cluster order) and SheenBidi. Widths are unbounded integers, positions exact quotients by 64."
  },
  {
   "property": "C32",
   "status": "proved",
   "theorems": [
    "RichText.C32_coverage"
   ],
   "note": "For any layout to overwrite, any paragraphs covering the text (contract of SheenBidi) whose library calls meet their contracts."
  },
  {
   "property": "C33",
   "status": "partial",
   "theorems": [
    "RichText.C33_no_break",
    "RichText.C33_pixels_partial",
    "RichText.C33_scaled_partial",
    "RichText.C33_positive",
    "RichText.C33_hanging_violated",
    "RichText.C33_scaled_twice_violated",
    "RichText.C33_zero_violated"
   ],
   "note": "Violated in three ways: tabs hanging behind the first overflowing glyph keep the width of a blank; tab widths in multiples of a blank are scaled again each time the glyph is looked at; a tab width of zero divides by zero. Proved: the unbroken layout; with pixel tab stops every tab up to the first overflowing glyph of every line; with scaled tab stops the tabs of the first line before the first overflowing glyph; with either kind of tab stops every tab of every line is wider than zero (C33_positive)."
  },
  {
   "property": "C34",
   "status": "partial",
   "theorems": [
    "RichText.C34_face_size_partial",
    "RichText.C34_distinct_partial",
    "RichText.C34_violated"
   ],
   "note": "False as stated: SingleScriptFont::operator== ignores weight, style and the subscript/superscript/small caps flags, so adjacent text is merged and drawn with the first font (C34_violated). Proved: face and size always agree (C34_face_size_partial); all attributes agree if no two resolved fonts share face and size without being equal (C34_distinct_partial)."
  },
  {
   "property": "C35",
   "status": "partial",
   "theorems": [
    "RichText.C35_partial",
    "RichText.C35_violated",
    "RichText.C35_boundary_violated"
   ],
   "note": "False for paragraphs that do not start at 0: ScriptRunValueIterator::advance_to compares a paragraph-relative limit with an absolute index (C35_violated, C35_boundary_violated). Proved in C35_partial: termination, ascending limits up to the paragraph end, formatting values and bidi levels of every index in every paragraph; the script if the paragraph starts at 0 or has one script run."
  },
  {
   "property": "C36",
   "status": "proved",
   "theorems": [
    "RichText.C36_script_runs_partition"
   ],
   "note": "U8_FWD_1 advancing and staying inside the text is a hypothesis (ScriptText.Forward, contract of ICU)."
  },
  {
   "property": "C37",
   "status": "partial",
   "theorems": [
    "RichText.C37_one_script_partial",
    "RichText.C37_malformed",
    "RichText.C37_origin",
    "RichText.C37_violated"
   ],
   "note": "C37_one_script_partial: every character up to the first ill-formed byte of its run. False behind it: the UErrorCode passed to uscript_getScript is not reset, so every character counts as having no script (C37_violated); C37_malformed: such a run goes on to the end of the text or a closing bracket. C37_origin: the script of a run is Common or that of a character in front of its end."
  },
  {
   "property": "C38",
   "status": "proved",
   "theorems": [
    "RichText.C38_bracket_stack_in_range"
   ],
   "note": "Also: no entry is read before it was written, and next returns. The macros' unsigned arithmetic is modelled; m_fixupCount is left at -1 and LIMIT_INC then yields 32, which is harmless because next resets it."
  },
  {
   "property": "C39",
   "status": "proved",
   "theorems": [
    "RichText.C39_pair_index",
    "RichText.C39_table"
   ],
   "note": "For every integer, not only 32-bit ones."
  },
  {
   "property": "C40",
   "status": "proved",
   "theorems": [
    "RichText.C40_handles_stable",
    "RichText.C40_handles_unique"
   ],
   "note": "All histories with at most 65535 family names; the registry is an association list."
  },
  {
   "property": "C41",
   "status": "proved",
   "theorems": [
    "RichText.C41_every_slot_has_a_face"
   ],
   "note": "For every registration with a non-empty face array, in the state after it and in every later state. A face whose name is already known resolves to the earlier face (weight, style and file then are the earlier ones)."
  },
  {
   "property": "C42",
   "status": "proved",
   "theorems": [
    "RichText.C42_duplicates_change_nothing",
    "RichText.C42_no_faces_changes_nothing",
    "RichText.C42_initialised_families_never_change"
   ],
   "note": "Visible state is the view by names plus the face table; a name reserved by a failed registration stays in the name table but is not visible."
  },
  {
   "property": "C43",
   "status": "partial",
   "theorems": [
    "RichText.C43_violated",
    "RichText.C43_valid_iff_mentioned_partial"
   ],
   "note": "Violated: linked and fallback names have valid handles without being registered. Proved instead: valid handle iff the name is mentioned in the history."
  },
  {
   "property": "C44",
   "status": "partial",
   "theorems": [
    "RichText.C44_base_face",
    "RichText.C44_face_order_partial",
    "RichText.C44_violated"
   ],
   "note": "Base face order proved. Face for text: violated if the base face's file cannot be loaded (fallbacks are not tried); proved if it can."
  },
  {
   "property": "C45",
   "status": "proved",
   "theorems": [
    "RichText.C45_defined",
    "RichText.C45_advances",
    "RichText.C45_splits",
    "RichText.C45_carries"
   ],
   "note": "Offset advance, segment shape, definedness and termination of the splitting loop. Definedness assumes that no family was registered with an empty non-null face array; without that the face table is read out of range (example). Also: the emitted font carries the requested size, weight, style and position flags."
  },
  {
   "property": "C46",
   "status": "partial",
   "theorems": [
    "RichText.C46_violated",
    "RichText.C46_case_runs_partial"
   ],
   "note": "Violated: the search for the first missing character runs past the case run. Proved for every segment that is not ended by a character the face lacks although it has one of the segment."
  },
  {
   "property": "C47",
   "status": "partial",
   "theorems": [
    "RichText.C47_requested_size_partial",
    "RichText.C47_violated"
   ],
   "note": "Violated for effective size 0 (cache entries start with size 0). Proved for all other sizes over all histories."
  },
  {
   "property": "C48",
   "status": "partial",
   "theorems": [
    "RichText.C48_history_independent_partial",
    "RichText.C48_violated"
   ],
   "note": "Violated by space_advance (keeps the value of the size first loaded). All other fields and success proved history independent."
  },
  {
   "property": "C49",
   "status": "partial",
   "theorems": [
    "RichText.C49_violated",
    "RichText.C49_violated_deadlock",
    "RichText.C49_not_nested_partial",
    "RichText.C49_no_deadlock_partial",
    "RichText.C49_runs_end_partial"
   ],
   "note": "Violated: get_sub_font holds the shared lock while get_font_data acquires it again; with a waiting writer this deadlocks (shown on a writer-preferring lock). Proved: histories that only look for cached faces never nest, and threads that never nest never deadlock, for any number of threads."
  },
  {
   "property": "C50",
   "status": "proved",
   "theorems": [
    "RichText.C50_next",
    "RichText.C50_prev",
    "RichText.C50_inside",
    "RichText.C50_there_and_back",
    "RichText.C50_back_and_there"
   ],
   "note": "Proved for every text and every grapheme segmentation; the ICU break iterator is a parameter with its contract (`Breaks`) as hypothesis."
  },
  {
   "property": "C51",
   "status": "proved",
   "theorems": [
    "RichText.C51_next_word",
    "RichText.C51_prev_word",
    "RichText.C51_direction"
   ],
   "note": "Proved for every text, segmentation and white-space predicate, including termination of both loops (they are total functions by a decreasing measure that follows from the contract)."
  },
  {
   "property": "C52",
   "status": "partial",
   "theorems": [
    "RichText.C52_inside_partial",
    "RichText.C52_empty_violated",
    "RichText.C52_stale_violated"
   ],
   "note": "Violated: clicks and arrow keys in an empty box are undefined in every environment; after deleting everything the old layout stays and End moves outside the text. Proved: in every other history of inputs (plain or rich text, editable or not; no movement or click while nothing is shown, no Backspace/Delete/Enter/Tab in read-only rich text, no paste from an empty clipboard) behaviour is defined and cursor and selection stay inside."
  },
  {
   "property": "C53",
   "status": "partial",
   "theorems": [
    "RichText.C53_type_partial",
    "RichText.C53_tab_partial",
    "RichText.C53_enter_partial",
    "RichText.C53_paste_partial",
    "RichText.C53_remove_selection_partial",
    "RichText.C53_backspace",
    "RichText.C53_delete",
    "RichText.C53_copy",
    "RichText.C53_cut_paste_partial",
    "RichText.C53_collapsed_violated",
    "RichText.C53_nul_violated",
    "RichText.C53_paste_violated",
    "RichText.C53_copy_rich_violated"
   ],
   "note": "Violated for a selection collapsed onto the cursor (a click with mouse motion), for text with NUL on the clipboard, for an empty clipboard, and for copying from read-only rich text (markup is copied at the positions of the content). Proved otherwise: typing, Tab, Enter and paste replace the selection, Backspace/Delete remove the selection or one grapheme/word, copy, and cut-then-paste."
  },
  {
   "property": "C54",
   "status": "partial",
   "theorems": [
    "RichText.C54_read_only_partial",
    "RichText.C54_violated",
    "RichText.C54_rich_violated"
   ],
   "note": "Violated: Backspace, Delete, Enter and Tab edit a read-only box, for rich text even at positions of the displayed text instead of the markup. Proved: every other input leaves the text."
  },
  {
   "property": "C55",
   "status": "proved",
   "theorems": [
    "RichText.C55_pack",
    "RichText.C55_reuse"
   ],
   "note": "For both atlases (padding 1 and 2), every sequence of uploads; pages are reused while they fit."
  },
  {
   "property": "C56",
   "status": "partial",
   "theorems": [
    "RichText.C56_children_partial",
    "RichText.C56_parent_partial",
    "RichText.C56_defined_partial",
    "RichText.C56_siblings_violated",
    "RichText.C56_last_violated",
    "RichText.C56_destroyed_violated",
    "RichText.C56_reverse_violated",
    "RichText.C56_dangling_violated",
    "RichText.C56_cycle_violated"
   ],
   "note": "Violated: a moved object takes its next siblings with it; detaching the last child makes the next attached child replace all others (and destroy them if nobody else holds them); the reverse walk visits detached objects; an object held only by its parent is destroyed inside its own set_parent; attaching below itself never ends. Proved: in every history in which only objects without parent and only children are moved (not below themselves, held by the caller), lists, reverse lists and parents are exact and set_parent is defined and ends."
  },
  {
   "property": "C57",
   "status": "proved",
   "theorems": [
    "RichText.C57_tiles"
   ],
   "note": "Lengths are exact rational numbers; the clip range must be ordered and the width positive."
  },
  {
   "property": "C58",
   "status": "proved",
   "theorems": [
    "RichText.C58_one",
    "RichText.C58_focus",
    "RichText.C58_notifications",
    "RichText.C58_reentrant"
   ],
   "note": "The handlers of the program make no calls on the container; C58_reentrant shows that a handler which calls back would never end."
  },
  {
   "property": "C59",
   "status": "proved",
   "theorems": [
    "RichText.C59_caret"
   ],
   "note": "Caret rectangle of calc_cursor_pixel_pos."
  },
  {
   "property": "C60",
   "status": "partial",
   "theorems": [
    "RichText.C60_rtl_violated",
    "RichText.C60_click_resolves_partial"
   ],
   "note": "Violated for right-to-left text (C60_rtl_violated); proved for left-to-right text."
  },
  {
   "property": "C61",
   "status": "proved",
   "theorems": [
    "RichText.C61_matched_brackets"
   ],
   "note": "The 32 latest open brackets are those of ScriptText.Opened; the stack of the code forgets older ones."
  },
  {
   "property": "C62",
   "status": "proved",
   "theorems": [
    "RichText.C62_runs_maximal"
   ],
   "note": "For all texts, ill-formed ones included."
  },
  {
   "property": "C63",
   "status": "proved",
   "theorems": [
    "RichText.C63_effective_size",
    "RichText.C63_undefined_sizes"
   ],
   "note": "Exact binary32 arithmetic."
  },
  {
   "property": "C64",
   "status": "proved",
   "theorems": [
    "RichText.C64_caret",
    "RichText.C64_left",
    "RichText.C64_right",
    "RichText.C64_ctrl_left",
    "RichText.C64_ctrl_right",
    "RichText.C64_home_end",
    "RichText.C64_ctrl_home_end",
    "RichText.C64_up_down",
    "RichText.C64_select_all",
    "RichText.C64_click",
    "RichText.C64_drag",
    "RichText.C64_focus"
   ],
   "note": "Caret, Shift-selection, Ctrl+A, clicks, drags and focus, for every state."
  },
  {
   "property": "C65",
   "status": "proved",
   "theorems": [
    "RichText.C65_encode",
    "RichText.C65_typing"
   ],
   "note": "Against Lean's own String.utf8EncodeChar, for every Char."
  },
  {
   "property": "C67",
   "status": "partial",
   "theorems": [
    "RichText.C67_glyph",
    "RichText.C67_stroke_partial",
    "RichText.C67_stable",
    "RichText.C67_apart",
    "RichText.C67_empty_violated",
    "RichText.C67_stroke_violated"
   ],
   "note": "Violated: the second request for an empty bitmap (a space) is undefined (member of a null page), and strokes of synthetic bold or italic text share an entry with the regular ones. Proved otherwise: right answers, stable places, different requests never share a place."
  },
  {
   "property": "C66",
   "status": "partial",
   "theorems": [
    "RichText.C66_byte",
    "RichText.C66_argb",
    "RichText.C66_rgba",
    "RichText.C66_abgr_partial",
    "RichText.C66_abgr_violated",
    "RichText.C66_abgr_lost_violated",
    "RichText.C66_markup",
    "RichText.C66_grey",
    "RichText.C66_color_partial",
    "RichText.C66_transparent_violated"
   ],
   "note": "Violated: from_abgr_uint does not mask its first shift, so every word with alpha gets a red above 1 and some lose a bit on the way back; a transparent pixel of a coloured bitmap divides 0 by 0 and converts NaN to an integer, which is undefined. Proved: ARGB and RGBA exact for all words, ABGR without alpha, grey pixels exact, coloured pixels with alpha within one step."
  },
  {
   "property": "C68",
   "status": "partial",
   "theorems": [
    "RichText.C68_absolute_partial",
    "RichText.C68_cost_violated"
   ],
   "note": "Violated in the cost: an object k+1 levels below the moved one is recalculated 2^k times in every tree. Proved: positions are right after every clean history (see C56), for any addition, so for floats as well."
  },
  {
   "property": "C69",
   "status": "partial",
   "theorems": [
    "RichText.C69_press_partial",
    "RichText.C69_hidden_violated"
   ],
   "note": "Proved for clean histories (see C56) and a container that is visible itself; handlers asked before do not change the tree. Violated: a hidden container is drawn but takes no press (C69_hidden_violated)."
  },
  {
   "property": "C70",
   "status": "partial",
   "theorems": [
    "RichText.C70_clicks_partial",
    "RichText.C70_first_violated"
   ],
   "note": "The press that gives the box the focus resets the count after it was counted, so that a double click on a box without focus needs three clicks (C70_first_violated). Proved: the count is that of the presses after the one that gave the focus."
  },
  {
   "property": "C71",
   "status": "partial",
   "theorems": [
    "RichText.C71_hover_partial",
    "RichText.C71_repeated_violated"
   ],
   "note": "The last notification is always right; but every move inside an object notifies it again, and every move outside of all objects notifies the last one again (C71_repeated_violated)."
  },
  {
   "property": "C72",
   "status": "proved",
   "theorems": [
    "RichText.C72_laid_out",
    "RichText.C72_home_end",
    "RichText.C72_click"
   ],
   "note": "Contracts of the libraries are hypotheses: ParaEnv.OK, and that HarfBuzz places glyphs forward and starts clusters at line breaks and direction changes (ParaEnv.Forward, ParaEnv.Clusters). Number of positions below 2^32, text below 2^31 bytes."
  },
  {
   "property": "C73",
   "status": "partial",
   "theorems": [
    "RichText.C73_positions",
    "RichText.C73_vertical",
    "RichText.C73_place_partial",
    "RichText.C73_distances",
    "RichText.C73_first_offset_violated",
    "RichText.C73_upside_down_violated",
    "RichText.C73_vertical_overlap_violated"
   ],
   "note": "Violated: the offset along the line of the first glyph of a run is dropped and moves the rest of the line (in vertical text runs overlap), upward offsets move glyphs of horizontal text down. Proved: exact positions for every run of one font and direction in one line, horizontal and vertical, distances between glyphs, and the claim if the first glyph has no offset and none is moved across the line."
  },
  {
   "property": "C74",
   "status": "partial",
   "theorems": [
    "RichText.C74_origin_partial",
    "RichText.C74_run_partial",
    "RichText.C74_longer_violated",
    "RichText.C74_shorter_violated",
    "RichText.C74_undefined_violated",
    "RichText.C74_lost_violated"
   ],
   "note": "Violated: remap_char_index looks an index of the upper case text up as an index of the source (findSourceIndex instead of findDestinationIndex). Behind a character whose upper case form is longer or shorter glyphs get wrong characters, glyphs at the end an index outside the run (and are lost), and some texts are read at index 2^32 - 6. Proved for every glyph up to the first character that changes its length, and the contract of C31 for runs without such a character."
  },
  {
   "property": "C75",
   "status": "partial",
   "theorems": [
    "RichText.C75_fill_partial",
    "RichText.C75_blit_partial",
    "RichText.C75_blend",
    "RichText.C75_fill_moved",
    "RichText.C75_blit_moved",
    "RichText.C75_fill_left_violated",
    "RichText.C75_blit_left_violated",
    "RichText.C75_fill_right_violated",
    "RichText.C75_fill_wrap_violated"
   ],
   "note": "Violated by fill_rect and blit: a rectangle that starts left of or above the bitmap is moved to its edge instead of cut off, one that starts right of it is drawn into the next row or outside of the memory (m_width - x wraps). Proved for them if the corner is in the bitmap or on its edge; C75_fill_moved, C75_blit_moved: what is drawn from every corner that is not right of the bitmap. blit_alpha proved for all positions."
  },
  {
   "property": "C76",
   "status": "partial",
   "theorems": [
    "RichText.C76_channels",
    "RichText.C76_opaque_violated",
    "RichText.C76_opaque_partial"
   ],
   "note": "Violated: alpha is multiplied by itself, so that every partly transparent colour makes an opaque destination transparent. The colour channels are right (exact arithmetic). The partial theorem gives exactly the cases in which an opaque destination stays opaque."
  },
  {
   "property": "C77",
   "status": "proved",
   "theorems": [
    "RichText.C77_sublist",
    "RichText.C77_length",
    "RichText.C77_utf8"
   ],
   "note": "Proved for all texts for which the parser returns a result (C07-C12 say when); valid UTF-8 is defined by the encoder of Lean itself."
  },
  {
   "property": "C78",
   "status": "partial",
   "theorems": [
    "RichText.C78_whole_partial",
    "RichText.C78_rich_violated",
    "RichText.C78_set_text_violated"
   ],
   "note": "Proved for plain text under the input restrictions of C52. Violated for editable rich text, where a click is looked up in the shown text and the cursor then used in the source, and when the program sets the text (the cursor stays where it is)."
  },
  {
   "property": "C79",
   "status": "partial",
   "theorems": [
    "RichText.C79_refines",
    "RichText.C79_advances",
    "RichText.C79_scale_violated",
    "RichText.C79_scale_partial"
   ],
   "note": "The advances are proved for all histories. The scale is wrong after the first request for a face, since the HarfBuzz font is made before FT_Request_Size; it is right from the second request on (the layout builder always asks twice) unless the effective size is 0."
  },
  {
   "property": "C80",
   "status": "partial",
   "theorems": [
    "RichText.C80_rounding_violated",
    "RichText.C80_rounding_partial",
    "RichText.C80_near",
    "RichText.C80_vertical",
    "RichText.C80_advances_partial"
   ],
   "note": "The sum is computed in float: wrong from 256 pixels on (C80_rounding_violated), exact below, and never off by more than 10/16 of a 64th up to the range of int."
  },
  {
   "property": "C81",
   "status": "partial",
   "theorems": [
    "RichText.C81_glyph",
    "RichText.C81_stroke_violated",
    "RichText.C81_stroke_partial"
   ],
   "note": "Glyphs are proved. apply_synthetic_bold works on face->glyph->outline instead of the outline it is given, so strokes are not emboldened; proved if the weight is not made up."
  },
  {
   "property": "C82",
   "status": "partial",
   "theorems": [
    "RichText.C82_direction_violated",
    "RichText.C82_direction_partial",
    "RichText.C82_weights"
   ],
   "note": "The amount ignores the weight of the face; proved for Regular, and the order among the weights of one face."
  },
  {
   "property": "C83",
   "status": "partial",
   "theorems": [
    "RichText.C83_unscaled_violated",
    "RichText.C83_unscaled_partial"
   ],
   "note": "Emboldening is computed from the current pixel size even for unscaled outlines; proved if the weight is not made up, and for strokes of proportional fonts."
  },
  {
   "property": "C84",
   "status": "partial",
   "theorems": [
    "RichText.C84_accepted_iff",
    "RichText.C84_defined_violated",
    "RichText.C84_defined_partial",
    "RichText.C84_scripts_violated",
    "RichText.C84_registered_partial",
    "RichText.C84_directory"
   ],
   "note": "Acceptance and contents are proved as an equivalence. Negative script numbers throw and unknown script names read an uninitialised variable; an empty list of scripts means all."
  },
  {
   "property": "C85",
   "status": "partial",
   "theorems": [
    "RichText.C85_merged",
    "RichText.C85_contours_violated",
    "RichText.C85_contours_partial"
   ],
   "note": "The test in msdf_move_to is inverted: all contours behind the first one with edges are merged into it (C85_merged says exactly what comes out). Proved for outlines with one contour."
  },
  {
   "property": "C86",
   "status": "proved",
   "theorems": [
    "RichText.C86_room",
    "RichText.C86_placed",
    "RichText.C86_defined"
   ],
   "note": "Proved in exact arithmetic for glyphs; strokes are not scaled, see C87."
  },
  {
   "property": "C87",
   "status": "partial",
   "theorems": [
    "RichText.C87_glyph_partial",
    "RichText.C87_stroke_partial",
    "RichText.C87_style_violated",
    "RichText.C87_empty_violated",
    "RichText.C87_baseline_violated",
    "RichText.C87_stroke_violated"
   ],
   "note": "Proved for fonts without made-up weight or style and without raised or lowered text, and for strokes at 32 pixels per em. Violated otherwise: keys lack weight and style, the baseline offset is not applied, strokes are not scaled, and the second request for a blank glyph dereferences a null page."
  },
  {
   "property": "C88",
   "status": "proved",
   "theorems": [
    "RichText.C88_size",
    "RichText.C88_fits"
   ],
   "note": "Contracts: ParaEnv.OK for the paragraphs and at most k glyphs per byte (HarfBuzz itself allows 64)."
  },
  {
   "property": "C89",
   "status": "partial",
   "theorems": [
    "RichText.C89_good",
    "RichText.C89_recalc",
    "RichText.C89_inside_partial"
   ],
   "note": "App.Contract lists the libraries. The history theorem has the exceptions of C52 (Allowed) and treats markup that overruns a buffer of the parser (C12) as plain text; C89_recalc says where the model of the box and the code with parser and builder agree."
  },
  {
   "property": "C90",
   "status": "partial",
   "theorems": [
    "RichText.C90_runs_partial",
    "RichText.C90_document"
   ],
   "note": "The script of a call is right only in the first paragraph or if there is one script run (C35). A text that does not end with a separator makes the iterators read one run past the end, after the last call (C05); both are part of the theorem."
  },
  {
   "property": "C91",
   "status": "partial",
   "theorems": [
    "RichText.C91_paragraphs",
    "RichText.C91_contract",
    "RichText.C91_inside_partial",
    "RichText.C91_fonts_partial",
    "RichText.C91_size"
   ],
   "note": "C91_inside_partial has the exceptions of C52 and C89. C91_fonts_partial lacks weight, style and flags of the font, for which it is false (C34). Calls made before the read of C05 count."
  },
  {
   "property": "C92",
   "status": "partial",
   "theorems": [
    "RichText.C92_released",
    "RichText.C92_alive",
    "RichText.C92_windows",
    "RichText.C92_portable",
    "RichText.C92_linux_partial",
    "RichText.C92_leak_violated",
    "RichText.C92_functions_partial",
    "RichText.C92_functions_violated"
   ],
   "note": "False on Linux for files that can be opened but not mapped: C92_leak_violated (descriptors stay open, e.g. of empty files). False when set_file_mapping_functions is called after a face has been registered: C92_functions_violated. Proved on Windows and other platforms, and on Linux without such files; set_file_mapping_functions before the first face is covered. Handle reuse by the operating system is not constrained: resources are a multiset."
  },
  {
   "property": "C93",
   "status": "partial",
   "theorems": [
    "RichText.C93_build_exact",
    "RichText.C93_build_near",
    "RichText.C93_floats",
    "RichText.C93_limit_violated"
   ],
   "note": "The bound on positions is the best possible: C93_limit_violated (16777217/64 becomes 16777216/64). C93_floats: every number the layout stores is a float. Assumes FLT_EVAL_METHOD 0, no contraction to fused multiply-add, no overflow. Metrics are arbitrary rationals in C93_build_near."
  },
  {
   "property": "C94",
   "status": "proved",
   "theorems": [
    "RichText.C94_built",
    "RichText.C94_lines",
    "RichText.C94_offset_near",
    "RichText.C94_ltr_monotone",
    "RichText.C94_rtl_antitone",
    "RichText.C94_range",
    "RichText.C94_abut",
    "RichText.C94_range_exact",
    "RichText.C94_caret"
   ],
   "note": "C94_built links the hypothesis CrispLayout to the builder (font metrics that are multiples of 1/64). Assumptions on float as in C93."
  },
  {
   "property": "C95",
   "status": "partial",
   "theorems": [
    "RichText.C95_in_line_partial",
    "RichText.C95_ltr_nearest",
    "RichText.C95_rtl_nearest",
    "RichText.C95_nearest_violated"
   ],
   "note": "Partial as C26: grapheme clusters do not reach over the end of a run. Exactly nearest is false: C95_nearest_violated. Nearest theorems are about points that are on the glyph as the code sees them (after rounding cursorX - lineX); C95_in_line_partial is about every point."
  },
  {
   "property": "C96",
   "status": "partial",
   "theorems": [
    "RichText.ToolBar.C96_setup",
    "RichText.ToolBar.C96_places",
    "RichText.ToolBar.C96_open_partial",
    "RichText.ToolBar.C96_edge_violated",
    "RichText.ToolBar.C96_narrow_violated",
    "RichText.ToolBar.C96_settings",
    "RichText.ToolBar.C96_choose",
    "RichText.ToolBar.C96_highlight",
    "RichText.ToolBar.C96_highlight_violated"
   ],
   "note": "C96_open_partial and C96_choose: presses follow a move to the same place, no point on the edge of two titles, the window is at least as wide as the menus (Calm). Without these the claim is false: C96_edge_violated, C96_narrow_violated. Items of closed menus are highlighted as well: C96_highlight_violated."
  },
  {
   "property": "C97",
   "status": "partial",
   "theorems": [
    "RichText.Window.C97_box_partial",
    "RichText.Window.C97_drag_partial",
    "RichText.Window.C97_drag_violated",
    "RichText.Window.C97_keys_partial",
    "RichText.Window.C97_keys_violated",
    "RichText.Window.C97_size_violated",
    "RichText.Window.C97_margins",
    "RichText.Window.C97_tray_violated"
   ],
   "note": "C97_box_partial rests on C52 (inputs in Allowed). C97_drag_partial: no release over a title or a visible item; otherwise false (C97_drag_violated). Keys reach the focused text box only below the mouse (C97_keys_partial, C97_keys_violated). C97_tray_violated: the frame of an open tray takes no presses. C97_size_violated: ten pixels of the text box are below the window."
  },
  {
   "property": "C98",
   "status": "partial",
   "theorems": [
    "RichText.C98_highlight",
    "RichText.C98_text",
    "RichText.C98_no_selection",
    "RichText.C98_white_partial",
    "RichText.C98_white_violated",
    "RichText.C98_right_violated",
    "RichText.C98_empty_violated",
    "RichText.C98_plain"
   ],
   "note": "C98_highlight, C98_text, C98_no_selection, C98_plain: what is drawn for every layout. C98_white_partial: white is what is in front of the highlight up to less than one pixel (as C57), for lines that start at the left edge. Otherwise false: C98_white_violated (centred), C98_right_violated; an empty selection makes a sliver white: C98_empty_violated. The painter (glyph images, colors) is a parameter; the outlines for debugging are off."
  },
  {
   "property": "C99",
   "status": "partial",
   "theorems": [
    "RichText.C99_click_on_caret_partial",
    "RichText.C99_same_position_partial",
    "RichText.C99_bidi_violated",
    "RichText.C99_accent_violated"
   ],
   "note": "C99_click_on_caret_partial, C99_same_position_partial: left-to-right text in which clusters start and end at grapheme boundaries and every glyph of a cluster after its first has a width (CaretText, WideText). Otherwise false: C99_bidi_violated (text that ends with right-to-left text), C99_accent_violated (an accent as a glyph of its own)."
  },
  {
   "property": "C100",
   "status": "partial",
   "theorems": [
    "RichText.C100_freed_once_partial",
    "RichText.C100_leak_violated"
   ],
   "note": "C100_freed_once_partial: all objects but HarfBuzz faces and blobs. Those are never freed (C100_leak_violated): harfbuzz_font_create keeps its own reference to the face. Reference counts as in the manual of HarfBuzz; one thread (the context is thread local)."
  },
  {
   "property": "C101",
   "status": "partial",
   "theorems": [
    "RichText.C101_text",
    "RichText.C101_codepoint",
    "RichText.C101_name_partial",
    "RichText.C101_prefix_violated",
    "RichText.C101_long_violated",
    "RichText.C101_extents",
    "RichText.C101_slant",
    "RichText.C101_contour"
   ],
   "note": "C101_name_partial: names up to 127 bytes that are not empty and no beginning of the name of glyph 0; otherwise false: C101_prefix_violated, C101_long_violated. FreeType is a parameter (NamesOk); extents in exact arithmetic with positive scales, no emboldening (never set here)."
  },
  {
   "property": "C102",
   "status": "partial",
   "theorems": [
    "RichText.C102_paragraph_partial",
    "RichText.C102_calls_partial",
    "RichText.C102_layout_partial",
    "RichText.C102_final_separator_violated",
    "RichText.C102_merged_violated",
    "RichText.C102_space_direction_violated",
    "RichText.C102_height_violated",
    "RichText.C102_empty_buffer_violated"
   ],
   "note": "C102_layout_partial, C102_calls_partial, C102_paragraph_partial: horizontal text without tabs and without a final separator, both shape the same parts (Subs; how the earlier builder finds them is C121), white space at the ends of lines in the direction of its text, neighbouring parts of one direction in different fonts. Otherwise false: C102_final_separator_violated, C102_merged_violated, C102_space_direction_violated, C102_height_violated (height of the end of a run), C102_empty_buffer_violated."
  },
  {
   "property": "C103",
   "status": "partial",
   "theorems": [
    "RichText.Life.C103_builder_partial",
    "RichText.Life.C103_controller_partial",
    "RichText.Life.C103_controller_move_violated",
    "RichText.Life.C103_builder_move_violated",
    "RichText.Life.C103_build_partial",
    "RichText.Life.C103_text_leak_violated",
    "RichText.Life.C103_view_partial",
    "RichText.Life.C103_view_violated"
   ],
   "note": "C103_builder_partial: without the integer m_cursor, which moving reads without value (C103_builder_move_violated). C103_controller_partial: no controller is constructed from another, which is always undefined (C103_controller_move_violated). C103_build_partial: objects of SheenBidi; texts opened for ICU are never closed (C103_text_leak_violated). C103_view_partial: the text is not set after the font was taken away (C103_view_violated). How many fonts and lines there are is arbitrary in the model of the calls."
  },
  {
   "property": "C104",
   "status": "partial",
   "theorems": [
    "RichText.C104_sound",
    "RichText.C104_checked",
    "RichText.C104_in_range_partial",
    "RichText.C104_line_violated",
    "RichText.C104_wide_violated"
   ],
   "note": "C104_in_range_partial: advances and offsets at most m, tabs at most W wide, all glyphs of a paragraph together in range. Missing without these bounds: any line wider than 2^31-1 overflows (C104_line_violated), so a few million glyphs without line breaks or blanks with line breaks do (C104_wide_violated). With line breaks and tab stops in multiples of a blank, tabs are assumed to be break opportunities. The conversions of the parameters from float are not modelled here."
  },
  {
   "property": "C105",
   "status": "partial",
   "theorems": [
    "RichText.C105_request_partial",
    "RichText.C105_glyph",
    "RichText.C105_defined_iff",
    "RichText.C105_leak_violated",
    "RichText.C105_failure_violated",
    "RichText.C105_read",
    "RichText.C105_nested_violated"
   ],
   "note": "C105_request_partial: if FreeType can do what is asked; strokes leave one glyph each (C105_leak_violated: exactly as many as strokes were drawn); failures of FreeType are not looked at (C105_failure_violated), C105_defined_iff says exactly when a history is defined. The data of a glyph does not survive drawing another glyph of the face inside the functor (C105_nested_violated; the functors of the sample do not). FreeType functions as documented, memory never exhausted."
  },
  {
   "property": "C106",
   "status": "partial",
   "theorems": [
    "RichText.C106_height_partial",
    "RichText.C106_exact",
    "RichText.C106_height_violated",
    "RichText.C106_raised_partial",
    "RichText.C106_raised_violated",
    "RichText.C106_line"
   ],
   "note": "C106_height_partial: size or one pixel more; C106_exact and C106_height_violated say which, up to 7/256 of a pixel. Raised and lowered text: C106_raised_partial (within 3/2 pixels), C106_raised_violated (both ways, and parts of a pixel in mixed lines). C106_line: the lines of the layout. FT_Request_Metrics by its formulas for scalable faces, grid-fitted metrics."
  },
  {
   "property": "C107",
   "status": "partial",
   "theorems": [
    "RichText.C107_superscript_violated",
    "RichText.C107_mixed_violated",
    "RichText.C107_subscript_violated",
    "RichText.C107_outline_partial"
   ],
   "note": "Violated in every usual face: superscripts alone at every size, next to plain text from size 52 (C107_mixed_violated, for every face; smaller sizes for the faces in use), subscripts from size 9 unless the descender is longer than the ascender. C107_outline_partial: which outlines stay in the line although the ascender does not."
  },
  {
   "property": "C108",
   "status": "partial",
   "theorems": [
    "RichText.C108_position_partial",
    "RichText.C108_underline_violated",
    "RichText.C108_strikethrough_violated"
   ],
   "note": "C108_position_partial: to 17/32 of a pixel (the scale uses the rounded pixels per em). Violated: the middle of the underline is taken as its top (C108_underline_violated), decorations of superscripts are not raised (C108_strikethrough_violated)."
  },
  {
   "property": "C109",
   "status": "partial",
   "theorems": [
    "RichText.C109_drawn_partial",
    "RichText.C109_program_violated"
   ],
   "note": "C109_drawn_partial: for every sequence of frames, provided the three programs could be made. C109_program_violated: a failed program is used all the same."
  },
  {
   "property": "C110",
   "status": "partial",
   "theorems": [
    "RichText.C110_rect",
    "RichText.C110_outline",
    "RichText.C110_glyph",
    "RichText.C110_clipped",
    "RichText.C110_selected_violated",
    "RichText.C110_padding_violated",
    "RichText.C110_decoration_partial",
    "RichText.C110_decoration_violated"
   ],
   "note": "C110_rect, C110_glyph, C110_clipped hold. C110_outline: the four lines of an outline run through the centres of corner pixels, the right and the lower one just outside the rectangle. Violated: glyphs selected in part are resampled (C110_selected_violated) and may show texels never written (C110_padding_violated); thin decorations disappear (C110_decoration_violated; C110_decoration_partial for lines of at least half a pixel). Exact arithmetic instead of 32-bit floating point."
  },
  {
   "property": "C111",
   "status": "partial",
   "theorems": [
    "RichText.C111_median",
    "RichText.C111_opacity_partial",
    "RichText.C111_flat_violated",
    "RichText.C111_rect_partial",
    "RichText.C111_padding_violated"
   ],
   "note": "C111_median, C111_opacity_partial (where the distance changes), C111_rect_partial (centres not on the four sides). Violated: undefined where the distance is constant (C111_flat_violated); texels never written are shown (C111_padding_violated)."
  },
  {
   "property": "C112",
   "status": "proved",
   "theorems": [
    "RichText.C112_compile",
    "RichText.C112_running",
    "RichText.C112_main"
   ],
   "note": "C112_compile for every valid state of the objects, C112_running for every sequence of steps, C112_main up to glfwTerminate. OpenGL by its specification of deletion (deferred while attached or in use)."
  },
  {
   "property": "C113",
   "status": "partial",
   "theorems": [
    "RichText.C113_layout_partial",
    "RichText.C113_bottom_violated",
    "RichText.C113_narrow_violated",
    "RichText.C113_pointer_partial",
    "RichText.C113_scale_violated"
   ],
   "note": "C113_layout_partial for windows wider than 20 pixels, C113_pointer_partial for a content scale of 1. Violated: the text box ends 10 pixels below the window (C113_bottom_violated), windows of at most 20 pixels (C113_narrow_violated), other content scales (C113_scale_violated)."
  },
  {
   "property": "C114",
   "status": "partial",
   "theorems": [
    "RichText.C114_blink",
    "RichText.C114_moved_partial",
    "RichText.C114_typing_violated"
   ],
   "note": "C114_blink and C114_moved_partial (movements, clicks, dragging, backspace and delete next to the caret). Violated: typing, pasting and cutting leave a hidden caret hidden (C114_typing_violated). Exact time instead of 32-bit floating point."
  },
  {
   "property": "C115",
   "status": "proved",
   "theorems": [
    "RichText.C115_index",
    "RichText.C115_counters",
    "RichText.C115_outside",
    "RichText.C115_layout"
   ],
   "note": "C115_index, C115_counters (indices inside of characters are moved behind them), C115_outside (indices behind the text are undefined), C115_layout. Well-formed texts; heights of lines in exact arithmetic."
  },
  {
   "property": "C116",
   "status": "partial",
   "theorems": [
    "RichText.C116_read_partial",
    "RichText.C116_read_violated",
    "RichText.C116_file_partial",
    "RichText.C116_family_partial",
    "RichText.C116_zero_violated",
    "RichText.C116_short_violated",
    "RichText.C116_data_partial",
    "RichText.C116_data_violated"
   ],
   "note": "C116_read_partial, C116_file_partial, C116_family_partial (readable files without zero bytes), C116_data_partial (padding that begins with a zero byte). Violated otherwise: C116_read_violated (exception and open file for pipes; zeros in place of what could not be read), C116_zero_violated and C116_short_violated (what is behind a zero byte is ignored), C116_data_violated (memory behind the view is read if the padding has no zero)."
  },
  {
   "property": "C117",
   "status": "partial",
   "theorems": [
    "RichText.C117_document_partial",
    "RichText.C117_parts",
    "RichText.C117_ltr",
    "RichText.C117_formatting",
    "RichText.C117_violated"
   ],
   "note": "C117_document_partial (when defined, and what is drawn then), C117_parts, C117_formatting (with it C13-C17 apply to documents), C117_ltr (left-to-right text without final separator is always drawn). Violated: C117_violated (a text with a separator at its end is laid out but drawing it reads out of range, as C14)."
  },
  {
   "property": "C118",
   "status": "partial",
   "theorems": [
    "RichText.C118_text",
    "RichText.C118_features",
    "RichText.C118_glyphs_partial",
    "RichText.C118_paragraph_partial",
    "RichText.C118_registry",
    "RichText.C118_context_violated"
   ],
   "note": "C118_text, C118_features, C118_glyphs_partial (clusters; missing as C74: small caps whose capitals have another length), C118_paragraph_partial (all runs of a paragraph; missing: synthesised small caps), C118_registry (which features the fonts of the registry ask for). Violated: C118_context_violated (synthesised small caps are shaped without context)."
  },
  {
   "property": "C119",
   "status": "partial",
   "theorems": [
    "RichText.C119_race_free",
    "RichText.C119_exclusive",
    "RichText.C119_linearizable",
    "RichText.C119_progress",
    "RichText.C119_terminates",
    "RichText.C119_finish",
    "RichText.C119_safe_defined",
    "RichText.C119_safe_programs",
    "RichText.C119_assert_violated"
   ],
   "note": "C119_race_free, C119_exclusive (no data race), C119_linearizable (atomic calls, in the order of an execution as it goes on), C119_progress, C119_terminates, C119_finish (no deadlock, all executions end, with the results of calls one after the other). C119_safe_defined, C119_safe_programs: the hypothesis of the others that calls are defined follows for programs with proper arguments, as long as handles have room. Violated in debug builds: C119_assert_violated (the assertion in get_font_data reads g_familyData without the mutex). With mutexes that make readers wait for a waiting writer see C49. Not covered: set_file_mapping_functions, which writes g_fileFuncs without the mutex and so must be called before any registration."
  },
  {
   "property": "C120",
   "status": "partial",
   "theorems": [
    "RichText.ParagraphFonts.C120_shaping_partial",
    "RichText.ParagraphFonts.C120_text_partial",
    "RichText.ParagraphFonts.C120_paragraph_partial",
    "RichText.ParagraphFonts.C120_history_partial",
    "RichText.ParagraphFonts.C120_scaled_partial",
    "RichText.ParagraphFonts.C120_tabs_violated",
    "RichText.ParagraphFonts.C120_unloadable",
    "RichText.ParagraphFonts.C120_unloadable_violated"
   ],
   "note": "C120_shaping_partial (defined, and as the environment says), C120_text_partial (several paragraphs), C120_paragraph_partial (with it the properties of the builder apply: ParaEnv.OK, ShapedOK), C120_history_partial (independent of the thread), C120_scaled_partial (no unscaled HarfBuzz font is used). Missing: faces that cannot be loaded, for which the property fails (C120_unloadable, C120_unloadable_violated: hb_shape gets a null font), small caps with capitals of another length (C74); widths of tabs depend on history (C120_tabs_violated, from C48)."
  },
  {
   "property": "C121",
   "status": "partial",
   "theorems": [
    "RichText.C121_runs",
    "RichText.C121_same_runs_partial",
    "RichText.C121_same_layout_partial",
    "RichText.C121_fonts_violated"
   ],
   "note": "C121_runs (what the runs of the earlier builder are, in full), C121_same_runs_partial and C121_same_layout_partial (those of LayoutBuilder, and with C102 the same layout, from the text on). Missing: font registries whose answer changes when the text is cut where the level changes, for which the property fails with the real get_sub_font (C121_fonts_violated), several scripts behind the first paragraph (C35), and what C102 leaves out."
  },
  {
   "property": "C122",
   "status": "partial",
   "theorems": [
    "RichText.BuildLibs.C122_text_partial",
    "RichText.BuildLibs.C122_history_partial",
    "RichText.BuildLibs.C122_document_partial",
    "RichText.BuildLibs.C122_blank_violated",
    "RichText.BuildLibs.C122_arguments",
    "RichText.BuildLibs.C122_fonts"
   ],
   "note": "C122_text_partial (the layout of a thread is that of TextLibs which keep their contracts and shape and measure with the files and sizes of the fonts), C122_history_partial (without tabs the thread does not matter), C122_document_partial (with C117, from markup to drawn glyphs). Missing: faces that cannot be loaded (C120), small caps whose capitals have another length (C74), vertical text, and threads that measured a blank at size zero, for which a tab divides by zero (C122_blank_violated). C122_arguments (each piece of text is shaped with a font, flags and a level that the text has and with the script of a character of its paragraph, or Common), C122_fonts (so every text without small caps in fonts with loadable faces meets the hypotheses)."
  },
  {
   "property": "C123",
   "status": "partial",
   "theorems": [
    "RichText.ThreadApp.C123_box_partial",
    "RichText.ThreadApp.C123_transcription"
   ],
   "note": "C123_box_partial (all sequences of admitted inputs), C123_transcription (the handlers in a thread are those of C52 but for recalc_text). Missing: inputs that C52 leaves out, markup with faces that cannot be loaded (C120) or synthesised small caps that change lengths (C74), threads that measured a blank at size zero (C122_blank_violated)."
  },
  {
   "property": "C124",
   "status": "proved",
   "theorems": [
    "RichText.C124_each_glyph",
    "RichText.C124_built",
    "RichText.C124_draw"
   ],
   "note": "For run.font in place of *run.pFont, which does not compile (finding). C124_built: layouts of the builder; C124_draw: the same glyphs as draw_text."
  },
  {
   "property": "C125",
   "status": "partial",
   "theorems": [
    "RichText.C125_split",
    "RichText.C125_paragraph_partial",
    "RichText.C125_defined_partial",
    "RichText.C125_text_partial",
    "RichText.C125_layout_partial",
    "RichText.C125_cluster_violated",
    "RichText.C125_empty_run_violated",
    "RichText.C125_surrogate_violated",
    "RichText.C125_empty_text_violated"
   ],
   "note": "C125_split is unrestricted. C125_text_partial: what it makes the layout builder makes; C125_layout_partial: both make it. Missing, as false: clusters of several glyphs (C125_cluster_violated), right-to-left runs without glyphs (C125_empty_run_violated), breaks in front of surrogate pairs (C125_surrogate_violated), the empty text (C125_empty_text_violated); the line behind a final separator has the font of the last character, in the layout builder that of the last paragraph (a hypothesis of SameText). The conditions of C102 on parts, tabs and offsets remain."
  },
  {
   "property": "C126",
   "status": "partial",
   "theorems": [
    "RichText.C126_extents_partial",
    "RichText.C126_lines",
    "RichText.C126_extents_violated",
    "RichText.C126_origin_partial",
    "RichText.C126_origin_violated",
    "RichText.C126_kerning"
   ],
   "note": "C126_extents_partial: line heights of at most three times the extent and scales of HarfBuzz that are not negative; C126_lines: the same for lines of plain text. Violated beyond: the numbers pass through float (C126_extents_violated). C126_origin_partial: bearings below 2^23; a negative scale turns the sign (C126_origin_violated). Kerning: the pixels of the HarfBuzz font are never set in the project."
  },
  {
   "property": "C127",
   "status": "partial",
   "theorems": [
    "RichText.C127_runs",
    "RichText.C127_glyphs",
    "RichText.C127_both",
    "RichText.C127_tile",
    "RichText.BuildLibs.C127_immediate_partial",
    "RichText.BuildLibs.C127_empty"
   ],
   "note": "C127_runs and C127_glyphs need runs with fewer than 2^31 glyphs (the loop counts with int32_t). C127_tile is for lines as the builder makes them (ProperLine). C127_immediate_partial needs the conditions of C122 (fonts whose faces load). Null pointers for small capitals and scripts behave as runs of false (planPlain_eq)."
  },
  {
   "property": "C128",
   "status": "partial",
   "theorems": [
    "RichText.ToolBar.C128_picture_partial",
    "RichText.ToolBar.C128_pixels",
    "RichText.ToolBar.C128_title",
    "RichText.ToolBar.C128_places",
    "RichText.ToolBar.C128_apart",
    "RichText.ToolBar.C128_press_partial",
    "RichText.ToolBar.C128_areas",
    "RichText.ToolBar.C128_text_violated"
   ],
   "note": "C128_picture_partial and C128_press_partial: for events as in C96_open_partial (not where two titles meet, window wide enough). C128_places: no name empty (a rectangle of negative width otherwise). Violated: the area of the text of every item ends 29 pixels behind the tray (C128_text_violated). The pixels of lines between the corners of an outline are assumed to be the straight ones."
  },
  {
   "property": "C129",
   "status": "partial",
   "theorems": [
    "RichText.C129_greedy",
    "RichText.C129_fewest",
    "RichText.C129_fits",
    "RichText.C129_paragraph",
    "RichText.C129_tab_violated"
   ],
   "note": "Glyph widths not negative and tabs wider than zero (from ParaEnv.Forward, as in C72). With tab stops in blanks the theorems ask for LineEnv.TabsOnce: an opportunity behind each tab and a single glyph in the cluster in front of it; C129_tab_violated shows that otherwise, as for a tab in front of a comma or closing bracket, there may be more lines than needed, since a line that looks at the tab and does not take it leaves a width that the next line takes for that of a blank (C33). C129_fits and C129_paragraph need that no opportunity lies inside the characters of one glyph (ParaEnv.Clusters, as in C72): otherwise a glyph wider than the area that hangs could carry visible text of the next line."
  },
  {
   "property": "C130",
   "status": "partial",
   "theorems": [
    "RichText.C130_records",
    "RichText.C130_flags",
    "RichText.C130_override_violated",
    "RichText.C130_levels_partial",
    "RichText.C130_carry_violated",
    "RichText.C130_heights_partial",
    "RichText.C130_heights_violated",
    "RichText.C130_glyphs_needed",
    "RichText.C130_reordered_violated"
   ],
   "note": "LayoutEx is a parameter: each visual run has glyphs, and the characters of its first and last glyph in reading order are the first and the last one of its range; C130_reordered_violated shows what happens otherwise, C130_glyphs_needed without glyphs. getFontTable (28-39) never gives back the blob it references: read, not modelled."
  },
  {
   "property": "C131",
   "status": "partial",
   "theorems": [
    "RichText.C131_monotone",
    "RichText.C131_up",
    "RichText.C131_paragraph",
    "RichText.C131_text",
    "RichText.C131_zero_violated",
    "RichText.C131_tab_violated",
    "RichText.C131_height",
    "RichText.C131_height_violated"
   ],
   "note": "Tabs as for C129 (LineEnv.TabsOnce for tab stops in blanks; C131_tab_violated without it). Forward and Clusters as for C72: glyphs run forward, and a break opportunity is the start of a cluster. Heights: proved for text of one font and size, false for two sizes."
  },
  {
   "property": "C132",
   "status": "partial",
   "theorems": [
    "RichText.C132_callback",
    "RichText.C132_answer",
    "RichText.C132_pointer_partial",
    "RichText.C132_leak_violated",
    "RichText.C132_release"
   ],
   "note": "HarfBuzz finds tables of a file in memory by itself (find is a parameter); the callback is given to HarfBuzz for faces that are not in memory only, which the font registry does not make. That hb_face_reference_table gives the empty blob, not null, for a missing table is its documented behaviour."
  },
  {
   "property": "C133",
   "status": "proved",
   "theorems": [
    "RichText.C133_instances",
    "RichText.C133_reserve"
   ],
   "note": "That LayoutEx keeps no pointer beyond the ParagraphLayout, which ends with the paragraph, is its documented behaviour. C133_reserve shows what the call of reserve is for."
  },
  {
   "property": "C134",
   "status": "partial",
   "theorems": [
    "RichText.C134_walk_partial",
    "RichText.C134_reach_partial",
    "RichText.C134_built",
    "RichText.C134_column_violated",
    "RichText.C134_rtl_violated"
   ],
   "note": "Partial: left-to-right text whose grapheme clusters do not reach over the end of a run. C134_built shows that text boxes with what LayoutBuilder made of left-to-right text qualify. Ctrl+Home and Ctrl+End (start and end of the text) are in C64."
  },
  {
   "property": "C135",
   "status": "proved",
   "theorems": [
    "RichText.C135_edit",
    "RichText.C135_edit_last"
   ],
   "note": "Paragraph.Moved says what it means that a paragraph stands elsewhere in the text: SheenBidi, HarfBuzz, ICU and the font registry give for it what they gave before, with the positions moved. An edit that makes the text shorter is the same statement read the other way round."
  },
  {
   "property": "C136",
   "status": "partial",
   "theorems": [
    "RichText.C136_take_back",
    "RichText.C136_take_back_partial",
    "RichText.C136_retype",
    "RichText.C136_select_remove",
    "RichText.C136_accent_violated",
    "RichText.C136_collapsed_violated"
   ],
   "note": "C136_take_back says exactly when one character is taken back: there is a grapheme boundary in front of it and none inside. C136_take_back_partial: any number of such characters. Violated otherwise (C136_accent_violated: an accent behind a letter). C136_retype and C136_select_remove are unrestricted. C136_collapsed_violated: Shift+Left, Shift+Right leave an empty selection, for which Backspace does nothing and which takes the next typed character away."
  },
  {
   "property": "C137",
   "status": "partial",
   "theorems": [
    "RichText.C137_steps",
    "RichText.C137_hanging_partial",
    "RichText.C137_quadratic_violated"
   ],
   "note": "C137_steps: the loops over glyphs are linear. C137_hanging_partial: so is the loop over hanging characters if there is a break opportunity behind each run of them. C137_quadratic_violated: without it (control characters, which ICU treats as combining marks) that loop runs n(n-1)/2 times for n characters. Not counted: the binary search of each line and the time ICU takes in preceding()."
  },
  {
   "property": "C138",
   "status": "partial",
   "theorems": [
    "RichText.C138_documents",
    "RichText.C138_written",
    "RichText.C138_only",
    "RichText.C138_angle_violated",
    "RichText.C138_utf8"
   ],
   "note": "C138_documents: an exact characterization (iff) of what can be written. C138_written and C138_only say it of the parser; C138_utf8: the markup is valid UTF-8 if whole characters are formatted. C138_angle_violated: a text that contains the character < cannot be shown with any formatting, since there is no way to write it in markup: where it is shown, all tags are shown as well. Also not writable (by the characterization): turning a flag or italic off, text that is not opaque."
  },
  {
   "property": "C139",
   "status": "partial",
   "theorems": [
    "RichText.C139_replace",
    "RichText.C139_type_delete",
    "RichText.C139_delete",
    "RichText.C139_inside_tag_violated"
   ],
   "note": "C139_replace (any markup in place of a shown byte), C139_type_delete (plain text before and behind, deletion of one byte), C139_delete (deletion of any set of shown bytes). C139_inside_tag_violated: at other places of the source, inside a tag, an ordinary character can turn the document into a text that is shown verbatim with all its tags."
  },
  {
   "property": "C140",
   "status": "partial",
   "theorems": [
    "RichText.C140_remove_partial",
    "RichText.C140_typed",
    "RichText.C140_backspace_partial",
    "RichText.C140_accent_violated"
   ],
   "note": "C140_typed, C140_backspace_partial, C140_remove_partial (a selection removed with Backspace, Delete or Cut), for the whole program of C89 (text box, parser, layout builder) with only the libraries assumed (App.Contract); the text stays below the limit of C88. Partial: the grapheme cluster ICU finds in the source, or what is selected, has to consist of shown bytes only. C140_accent_violated: a combining accent at the start of a tag is one cluster with the > in front of it, and Backspace destroys the tag."
  },
  {
   "property": "C141",
   "status": "partial",
   "theorems": [
    "RichText.App.C141_shows",
    "RichText.App.C141_same",
    "RichText.App.C141_frame_partial",
    "RichText.App.C141_drawn",
    "RichText.App.C141_emptied_violated"
   ],
   "note": "C141_shows (invariant, no assumption on the libraries), C141_same (frames), C141_drawn (what a frame without a selection consists of; with one see C98), C141_frame_partial (when the text of a frame is defined; that the runs are looked up inside the text fails for right-to-left runs at the end and for a final separator, C14, C117). The last sentence is violated (C141_emptied_violated): the old layout is drawn with the formatting of the empty text, which reads outside the vectors."
  },
  {
   "property": "C142",
   "status": "proved",
   "theorems": [
    "RichText.C142_run",
    "RichText.C142_highlight",
    "RichText.App.C142_copied"
   ],
   "note": "C142_run for a run, C142_highlight for the rectangles of a layout, C142_copied for the text box. Where an end of the selection is inside a cluster (a ligature) the offset is interpolated (C24) and part of the glyph is highlighted. For rich text that is only read, Copy uses the positions of the shown text in the source (C53_copy_rich_violated)."
  },
  {
   "property": "C143",
   "status": "proved",
   "theorems": [
    "RichText.C143_typed",
    "RichText.C143_history"
   ],
   "note": "C143_typed joins C136 (typing), C10 (the parser), the layout contract and C117 (drawing); C143_history says the same for any history of inputs, with the layout and the formatting the box has kept (C141). For a text from left to right without a separator at its end the runs are looked up inside (C117); otherwise drawing can be undefined (C14, C117_violated)."
  },
  {
   "property": "C144",
   "status": "partial",
   "theorems": [
    "RichText.C144_copy",
    "RichText.C144_type_partial",
    "RichText.C144_click",
    "RichText.C144_violated"
   ],
   "note": "C144_copy and C144_click hold as stated. C144_type_partial gives the text for all characters typed: they replace what is between the places if these differ; if they are the same, the first of several characters is lost (C144_violated), because a selection of nothing is started by any movement of the pointer and kept."
  },
  {
   "property": "C145",
   "status": "partial",
   "theorems": [
    "RichText.C145_moved",
    "RichText.C145_all_violated"
   ],
   "note": "C145_moved for every stretch but the whole text: the new text is a permutation of the old, given exactly. C145_all_violated: after cutting the whole text the old layout is still there (C52), a click finds a place in it, the paste leaves the cursor behind the text and Backspace throws."
  },
  {
   "property": "C146",
   "status": "partial",
   "theorems": [
    "RichText.C146_pasted_partial",
    "RichText.C146_violated"
   ],
   "note": "C146_pasted_partial: equality of the whole states, for every selection that is not of length 0. C146_violated: after a click during which the pointer moved without leaving the place (selection of length 0), typing loses its first character and pasting does not."
  },
  {
   "property": "C147",
   "status": "partial",
   "theorems": [
    "RichText.C147_word_partial",
    "RichText.C147_start_violated",
    "RichText.C147_line_partial",
    "RichText.C147_rtl_violated"
   ],
   "note": "C147_word_partial: every place in the word but its start. C147_start_violated: for every text and every word that is not the first, a second click at its start selects what is before it and nothing of it (prev_word leaves the word). C147_line_partial: left-to-right text; C147_rtl_violated: in right-to-left text a third click selects nothing."
  },
  {
   "property": "C148",
   "status": "partial",
   "theorems": [
    "RichText.C148_put_back_partial",
    "RichText.C148_nul_violated"
   ],
   "note": "C148_put_back_partial: texts without NUL; both sequences give the same state. C148_nul_violated: the clipboard ends at a NUL, so what is behind it in the stretch is lost."
  },
  {
   "property": "C149",
   "status": "proved",
   "theorems": [
    "RichText.C149_reach",
    "RichText.C149_back"
   ],
   "note": "C149_reach with a bound on the number of keys; C149_back. Words are maximal stretches of graphemes that do not start with white space."
  },
  {
   "property": "C150",
   "status": "partial",
   "theorems": [
    "RichText.C150_replaced_partial",
    "RichText.C150_joined_violated"
   ],
   "note": "C150_replaced_partial: the last word of a line, clicked not at its start. C150_joined_violated: for every word followed by another one on its line the white space between the two is lost too, so that what is typed and the next word are joined."
  },
  {
   "property": "C151",
   "status": "partial",
   "theorems": [
    "RichText.C151_cycle_partial",
    "RichText.C151_focus_violated",
    "RichText.C151_apart_violated"
   ],
   "note": "Proved for every number of clicks in a box that has the focus; the word and the line under the conditions of C147. False for a box without focus, where the first click is not counted (C151_focus_violated), and for points apart that stand for the same place in the text (C151_apart_violated)."
  },
  {
   "property": "C152",
   "status": "partial",
   "theorems": [
    "RichText.C152_released_partial",
    "RichText.C152_word_violated",
    "RichText.C152_all_violated"
   ],
   "note": "Proved for every number of clicks and all movements after the release. False for movements while the button is down, for every word and every text (C152_word_violated, C152_all_violated)."
  },
  {
   "property": "C153",
   "status": "partial",
   "theorems": [
    "RichText.C153_typed_partial",
    "RichText.C153_rich",
    "RichText.C153_rich_violated"
   ],
   "note": "Proved for all plain boxes, focused or not, and for focused rich ones. False for editable rich text without focus: the offset in the text shown is used in the source (C153_rich for every such state, C153_rich_violated for an instance)."
  },
  {
   "property": "C154",
   "status": "partial",
   "theorems": [
    "RichText.C154_selects",
    "RichText.C154_typed_partial",
    "RichText.C154_same_violated"
   ],
   "note": "Selection and Copy proved for all sequences of such clicks; typing for places other than that of the caret. False for a click with shift where the caret is: the first of the characters typed is lost, in every state (C154_same_violated)."
  },
  {
   "property": "C155",
   "status": "proved",
   "theorems": [
    "RichText.C155_typed",
    "RichText.C155_removed"
   ],
   "note": "Proved for every state of a box being edited that has text; what is drawn and clicked between the removal and the first character is the subject of C52, C141 and C145."
  },
  {
   "property": "C156",
   "status": "partial",
   "theorems": [
    "RichText.C156_bytes",
    "RichText.C156_single_partial",
    "RichText.C156_paste_violated"
   ],
   "note": "C156_bytes is the first half in full: any set of bytes absent from the text and the clipboard, and from what is typed, stays absent. C156_single_partial is the second half for a clipboard without line breaks; C156_paste_violated shows that a line break in the clipboard always gets into the text when pasted, although Enter leaves such a box."
  },
  {
   "property": "C157",
   "status": "partial",
   "theorems": [
    "RichText.C157_holds_partial",
    "RichText.C157_kept",
    "RichText.C157_nothing",
    "RichText.C157_readonly",
    "RichText.C157_pasted_partial",
    "RichText.C157_nul_violated"
   ],
   "note": "C157_kept, C157_nothing and C157_readonly say when the clipboard does not change; C157_holds_partial and C157_pasted_partial what it holds and what is pasted, for selections without a zero byte. C157_nul_violated: with one, the clipboard never holds the whole selection, since it is handed over as a C string. Only inputs of the box are considered: other programs can change the clipboard at any time."
  },
  {
   "property": "C158",
   "status": "partial",
   "theorems": [
    "RichText.C158_same_caret",
    "RichText.C158_selects",
    "RichText.C158_typed_partial",
    "RichText.C158_removed_partial",
    "RichText.C158_back_violated"
   ],
   "note": "C158_same_caret compares the executions with and without shift, in every state and with any library; C158_selects, C158_typed_partial and C158_removed_partial are copying, typing and removing. C158_back_violated: when the keys lead back to where the caret was, the empty selection is kept, and in every state the first of the characters typed next is lost."
  },
  {
   "property": "C159",
   "status": "proved",
   "theorems": [
    "RichText.C159_resumes",
    "RichText.C159_unbroken"
   ],
   "note": "C159_resumes: the caret's place in the source survives, and the selection is dropped; C159_unbroken compares with the text typed without a break. A press of the button in the box moves the caret and is C153."
  },
  {
   "property": "C160",
   "status": "proved",
   "theorems": [
    "RichText.C160_before",
    "RichText.C160_behind",
    "RichText.C160_removes"
   ],
   "note": "C160_before and C160_behind are typing, C160_removes the keys that remove. A box without text is excluded: moving the caret in it is undefined (C52)."
  },
  {
   "property": "C161",
   "status": "partial",
   "theorems": [
    "RichText.C161_line_partial",
    "RichText.C161_removes_partial"
   ],
   "note": "C161_line_partial and C161_removes_partial are for left-to-right text, as C134 and C23: for right-to-left text Home and End lead elsewhere (C23, C134_rtl_violated). The second one needs a line with characters: nothing is selected on an empty one."
  },
  {
   "property": "C162",
   "status": "proved",
   "theorems": [
    "RichText.C162_left",
    "RichText.C162_right",
    "RichText.C162_types"
   ],
   "note": "C162_left and C162_right give the exact number of presses as a count of boundaries; C162_types adds what is typed there. The boundaries are those of the break iterator, given by its contract (Breaks)."
  }
 ]
}