# Axioms of the property theorems

Printed by `#print axioms`; written by `tools/mkaxioms.py`.

| Theorem | Axioms |
|---|---|
| `RichText.C01_get_value` | propext, Quot.sound |
| `RichText.C01_get_value_defined` | propext, Classical.choice, Quot.sound |
| `RichText.C01_run_index` | propext, Quot.sound |
| `RichText.C01_past_end` | propext, Quot.sound |
| `RichText.C02_packed_bool` | propext, Quot.sound |
| `RichText.C02_read_back` | propext, Quot.sound |
| `RichText.C03_subset` | propext, Classical.choice, Quot.sound |
| `RichText.C04_intersections` | propext, Quot.sound |
| `RichText.C04_empty` | propext, Quot.sound |
| `RichText.C05_advance_exact` | propext, Quot.sound |
| `RichText.C05_advance_value` | propext, Quot.sound |
| `RichText.C05_advance_past_end_violated` | propext, Quot.sound |
| `RichText.C05_out_of_range_violated` | propext, Classical.choice, Quot.sound |
| `RichText.C05_iterators_partial` | propext, Classical.choice, Quot.sound |
| `RichText.C06_builder` | propext, Classical.choice, Quot.sound |
| `RichText.C07_returns` | propext, Classical.choice, Quot.sound |
| `RichText.C07_runs_fit` | propext, Classical.choice, Quot.sound |
| `RichText.C08_fallback_partial` | propext, Classical.choice, Quot.sound |
| `RichText.C09_plain` | propext, Classical.choice, Quot.sound |
| `RichText.C10_documents` | propext, Classical.choice, Quot.sound |
| `RichText.C10_unambiguous` | propext, Classical.choice, Quot.sound |
| `RichText.C11_only_documents` | propext, Classical.choice, Quot.sound |
| `RichText.C11_well_formed` | propext, Classical.choice, Quot.sound |
| `RichText.C12_weight_buffer_violated` | propext, Quot.sound |
| `RichText.C12_number_buffer_violated` | propext, Quot.sound |
| `RichText.C12_no_overrun_partial` | propext, Classical.choice, Quot.sound |
| `RichText.C13_iterator_history` | propext, Classical.choice, Quot.sound |
| `RichText.C13_inside` | propext, Classical.choice, Quot.sound |
| `RichText.C14_defined_iff_partial` | propext, Classical.choice, Quot.sound |
| `RichText.C14_rtl_violated` | propext, Classical.choice, Quot.sound |
| `RichText.C14_trailing_line_violated` | propext, Classical.choice, Quot.sound |
| `RichText.C15_covered` | propext, Classical.choice, Quot.sound |
| `RichText.C15_exact_partial` | propext, Classical.choice, Quot.sound |
| `RichText.C15_violated` | propext, Classical.choice, Quot.sound |
| `RichText.C16_draw_order` | propext, Classical.choice, Quot.sound |
| `RichText.C16_glyphs` | propext, Classical.choice, Quot.sound |
| `RichText.C16_plain` | propext, Classical.choice, Quot.sound |
| `RichText.C16_places` | propext, Classical.choice, Quot.sound |
| `RichText.C17_set_position` | propext, Quot.sound |
| `RichText.C17_set_affinity` | propext, Quot.sound |
| `RichText.C17_position_range` | propext, Classical.choice, Quot.sound |
| `RichText.C17_valid` | propext, Quot.sound |
| `RichText.C17_eq_iff` | propext, Classical.choice, Quot.sound |
| `RichText.C18_face_getters` | propext, Quot.sound |
| `RichText.C18_face_injective` | propext, Quot.sound |
| `RichText.C18_face_valid` | propext, Quot.sound |
| `RichText.C18_font` | propext, Quot.sound |
| `RichText.C19_stores` | propext, Classical.choice, Quot.sound |
| `RichText.C19_consistent` | propext, Classical.choice, Quot.sound |
| `RichText.C19_addresses` | propext, Classical.choice, Quot.sound |
| `RichText.C20_line_height` | propext, Classical.choice, Quot.sound |
| `RichText.C20_text_height` | propext, Classical.choice, Quot.sound |
| `RichText.C20_for_each_line` | propext, Classical.choice, Quot.sound |
| `RichText.C20_text_width` | propext, Classical.choice, Quot.sound |
| `RichText.C21_past_end_violated` | propext, Classical.choice, Quot.sound |
| `RichText.C21_start_violated` | propext, Classical.choice, Quot.sound |
| `RichText.C21_line_partial` | propext, Classical.choice, Quot.sound |
| `RichText.C22_rtl_violated` | propext, Classical.choice, Quot.sound |
| `RichText.C22_direction_violated` | propext, Classical.choice, Quot.sound |
| `RichText.C22_line_number` | propext, Classical.choice, Quot.sound |
| `RichText.C22_inside_partial` | propext, Classical.choice, Quot.sound |
| `RichText.C22_contiguous_partial` | propext, Classical.choice, Quot.sound |
| `RichText.C23_rtl_home_violated` | propext, Classical.choice, Quot.sound |
| `RichText.C23_in_line` | propext, Classical.choice, Quot.sound |
| `RichText.C23_ltr_bounds` | propext, Classical.choice, Quot.sound |
| `RichText.C23_resolve_partial` | propext, Classical.choice, Quot.sound |
| `RichText.C24_ltr_exact` | propext, Classical.choice, Quot.sound |
| `RichText.C24_ltr_interpolates` | propext, Classical.choice, Quot.sound |
| `RichText.C24_ltr_monotone` | propext, Classical.choice, Quot.sound |
| `RichText.C24_rtl_exact` | propext, Classical.choice, Quot.sound |
| `RichText.C24_rtl_interpolates` | propext, Classical.choice, Quot.sound |
| `RichText.C24_rtl_antitone` | propext, Classical.choice, Quot.sound |
| `RichText.C24_cluster_violated` | propext, Classical.choice, Quot.sound |
| `RichText.C24_separator_violated` | propext, Classical.choice, Quot.sound |
| `RichText.C25_ordered` | propext, Classical.choice, Quot.sound |
| `RichText.C25_full` | propext, Classical.choice, Quot.sound |
| `RichText.C25_abut` | propext, Classical.choice, Quot.sound |
| `RichText.C25_widths` | propext, Classical.choice, Quot.sound |
| `RichText.C25_contains` | propext, Classical.choice, Quot.sound |
| `RichText.C26_straddle_violated` | propext, Classical.choice, Quot.sound |
| `RichText.C26_in_line_partial` | propext, Classical.choice, Quot.sound |
| `RichText.C26_ltr_nearest` | propext, Classical.choice, Quot.sound |
| `RichText.C26_rtl_nearest` | propext, Classical.choice, Quot.sound |
| `RichText.C27_horizontal` | propext, Classical.choice, Quot.sound |
| `RichText.C27_vertical` | propext, Classical.choice, Quot.sound |
| `RichText.C28_terminates` | propext, Classical.choice, Quot.sound |
| `RichText.C28_partition` | propext, Classical.choice, Quot.sound |
| `RichText.C28_defined` | propext, Classical.choice, Quot.sound |
| `RichText.C29_only_space_hangs` | propext, Classical.choice, Quot.sound |
| `RichText.C30_line` | propext, Classical.choice, Quot.sound |
| `RichText.C31_lines` | propext, Classical.choice, Quot.sound |
| `RichText.C31_paragraph` | propext, Classical.choice, Quot.sound |
| `RichText.C32_coverage` | propext, Classical.choice, Quot.sound |
| `RichText.C33_no_break` | propext, Classical.choice, Quot.sound |
| `RichText.C33_pixels_partial` | propext, Classical.choice, Quot.sound |
| `RichText.C33_scaled_partial` | propext, Classical.choice, Quot.sound |
| `RichText.C33_positive` | propext, Classical.choice, Quot.sound |
| `RichText.C33_hanging_violated` | propext, Classical.choice, Quot.sound |
| `RichText.C33_scaled_twice_violated` | propext, Classical.choice, Quot.sound |
| `RichText.C33_zero_violated` | propext, Classical.choice, Quot.sound |
| `RichText.C34_face_size_partial` | propext, Classical.choice, Quot.sound |
| `RichText.C34_distinct_partial` | propext, Classical.choice, Quot.sound |
| `RichText.C34_violated` | propext, Classical.choice, Quot.sound |
| `RichText.C35_partial` | propext, Classical.choice, Quot.sound |
| `RichText.C35_violated` | propext, Quot.sound |
| `RichText.C35_boundary_violated` | propext, Quot.sound |
| `RichText.C36_script_runs_partition` | propext, Classical.choice, Quot.sound |
| `RichText.C37_one_script_partial` | propext, Classical.choice, Quot.sound |
| `RichText.C37_malformed` | propext, Classical.choice, Quot.sound |
| `RichText.C37_origin` | propext, Classical.choice, Quot.sound |
| `RichText.C37_violated` | propext, Classical.choice, Quot.sound |
| `RichText.C38_bracket_stack_in_range` | propext, Classical.choice, Quot.sound |
| `RichText.C39_pair_index` | propext, Classical.choice, Quot.sound |
| `RichText.C39_table` | propext, Classical.choice, Quot.sound |
| `RichText.C40_handles_stable` | propext, Quot.sound |
| `RichText.C40_handles_unique` | propext, Classical.choice, Quot.sound |
| `RichText.C41_every_slot_has_a_face` | propext, Classical.choice, Quot.sound |
| `RichText.C42_duplicates_change_nothing` | propext, Classical.choice, Quot.sound |
| `RichText.C42_no_faces_changes_nothing` | propext, Classical.choice, Quot.sound |
| `RichText.C42_initialised_families_never_change` | propext, Classical.choice, Quot.sound |
| `RichText.C43_violated` | propext, Quot.sound |
| `RichText.C43_valid_iff_mentioned_partial` | propext, Classical.choice, Quot.sound |
| `RichText.C44_base_face` | propext |
| `RichText.C44_face_order_partial` | propext, Classical.choice, Quot.sound |
| `RichText.C44_violated` | propext, Quot.sound |
| `RichText.C45_defined` | propext, Classical.choice, Quot.sound |
| `RichText.C45_advances` | propext, Classical.choice, Quot.sound |
| `RichText.C45_splits` | propext, Classical.choice, Quot.sound |
| `RichText.C45_carries` | propext, Quot.sound |
| `RichText.C46_violated` | propext, Quot.sound |
| `RichText.C46_case_runs_partial` | propext, Classical.choice, Quot.sound |
| `RichText.C47_requested_size_partial` | propext, Classical.choice, Quot.sound |
| `RichText.C47_violated` | propext, Quot.sound |
| `RichText.C48_history_independent_partial` | propext, Classical.choice, Quot.sound |
| `RichText.C48_violated` | propext, Quot.sound |
| `RichText.C49_violated` | propext, Quot.sound |
| `RichText.C49_violated_deadlock` | propext, Classical.choice, Quot.sound |
| `RichText.C49_not_nested_partial` | propext, Classical.choice, Quot.sound |
| `RichText.C49_no_deadlock_partial` | propext, Classical.choice, Quot.sound |
| `RichText.C49_runs_end_partial` | propext, Classical.choice, Quot.sound |
| `RichText.C50_next` | none |
| `RichText.C50_prev` | none |
| `RichText.C50_inside` | none |
| `RichText.C50_there_and_back` | propext, Quot.sound |
| `RichText.C50_back_and_there` | propext, Quot.sound |
| `RichText.C51_next_word` | propext, Classical.choice, Quot.sound |
| `RichText.C51_prev_word` | propext, Classical.choice, Quot.sound |
| `RichText.C51_direction` | propext, Classical.choice, Quot.sound |
| `RichText.C52_inside_partial` | propext, Classical.choice, Quot.sound |
| `RichText.C52_empty_violated` | propext, Classical.choice, Quot.sound |
| `RichText.C52_stale_violated` | propext, Classical.choice, Quot.sound |
| `RichText.C53_type_partial` | propext, Classical.choice, Quot.sound |
| `RichText.C53_tab_partial` | propext, Classical.choice, Quot.sound |
| `RichText.C53_enter_partial` | propext, Classical.choice, Quot.sound |
| `RichText.C53_paste_partial` | propext, Classical.choice, Quot.sound |
| `RichText.C53_remove_selection_partial` | propext, Classical.choice, Quot.sound |
| `RichText.C53_backspace` | propext, Classical.choice, Quot.sound |
| `RichText.C53_delete` | propext, Classical.choice, Quot.sound |
| `RichText.C53_copy` | propext, Classical.choice, Quot.sound |
| `RichText.C53_cut_paste_partial` | propext, Classical.choice, Quot.sound |
| `RichText.C53_collapsed_violated` | propext, Classical.choice, Quot.sound |
| `RichText.C53_nul_violated` | propext, Classical.choice, Quot.sound |
| `RichText.C53_paste_violated` | propext, Classical.choice, Quot.sound |
| `RichText.C53_copy_rich_violated` | propext, Classical.choice, Quot.sound |
| `RichText.C54_read_only_partial` | propext, Classical.choice, Quot.sound |
| `RichText.C54_violated` | propext, Classical.choice, Quot.sound |
| `RichText.C54_rich_violated` | propext, Classical.choice, Quot.sound |
| `RichText.C55_pack` | propext, Classical.choice, Quot.sound |
| `RichText.C55_reuse` | propext, Classical.choice, Quot.sound |
| `RichText.C56_children_partial` | propext, Classical.choice, Quot.sound |
| `RichText.C56_parent_partial` | propext, Classical.choice, Quot.sound |
| `RichText.C56_defined_partial` | propext, Classical.choice, Quot.sound |
| `RichText.C56_siblings_violated` | propext, Quot.sound |
| `RichText.C56_last_violated` | propext, Quot.sound |
| `RichText.C56_destroyed_violated` | propext, Quot.sound |
| `RichText.C56_reverse_violated` | propext, Quot.sound |
| `RichText.C56_dangling_violated` | propext, Quot.sound |
| `RichText.C56_cycle_violated` | propext, Quot.sound |
| `RichText.C57_tiles` | propext, Classical.choice, Quot.sound |
| `RichText.C58_one` | propext, Classical.choice, Quot.sound |
| `RichText.C58_focus` | propext, Classical.choice, Quot.sound |
| `RichText.C58_notifications` | propext, Classical.choice, Quot.sound |
| `RichText.C58_reentrant` | propext, Quot.sound |
| `RichText.C59_caret` | propext, Classical.choice, Quot.sound |
| `RichText.C60_rtl_violated` | propext, Classical.choice, Quot.sound |
| `RichText.C60_click_resolves_partial` | propext, Classical.choice, Quot.sound |
| `RichText.C61_matched_brackets` | propext, Classical.choice, Quot.sound |
| `RichText.C62_runs_maximal` | propext, Classical.choice, Quot.sound |
| `RichText.C63_effective_size` | propext, Classical.choice, Quot.sound |
| `RichText.C63_undefined_sizes` | propext, Classical.choice, Quot.sound |
| `RichText.C64_caret` | propext, Classical.choice, Quot.sound |
| `RichText.C64_left` | propext, Classical.choice, Quot.sound |
| `RichText.C64_right` | propext, Classical.choice, Quot.sound |
| `RichText.C64_ctrl_left` | propext, Classical.choice, Quot.sound |
| `RichText.C64_ctrl_right` | propext, Classical.choice, Quot.sound |
| `RichText.C64_home_end` | propext, Classical.choice, Quot.sound |
| `RichText.C64_ctrl_home_end` | propext, Classical.choice, Quot.sound |
| `RichText.C64_up_down` | propext, Classical.choice, Quot.sound |
| `RichText.C64_select_all` | propext, Classical.choice, Quot.sound |
| `RichText.C64_click` | propext, Classical.choice, Quot.sound |
| `RichText.C64_drag` | propext, Classical.choice, Quot.sound |
| `RichText.C64_focus` | propext, Classical.choice, Quot.sound |
| `RichText.C65_encode` | propext, Quot.sound |
| `RichText.C65_typing` | propext, Classical.choice, Quot.sound |
| `RichText.C67_glyph` | propext, Classical.choice, Quot.sound |
| `RichText.C67_stroke_partial` | propext, Classical.choice, Quot.sound |
| `RichText.C67_stable` | propext, Classical.choice, Quot.sound |
| `RichText.C67_apart` | propext, Classical.choice, Quot.sound |
| `RichText.C67_empty_violated` | propext, Classical.choice, Quot.sound |
| `RichText.C67_stroke_violated` | propext, Classical.choice, Quot.sound |
| `RichText.C66_byte` | none |
| `RichText.C66_argb` | propext, Quot.sound |
| `RichText.C66_rgba` | propext, Quot.sound |
| `RichText.C66_abgr_partial` | propext, Quot.sound |
| `RichText.C66_abgr_violated` | propext, Classical.choice, Quot.sound |
| `RichText.C66_abgr_lost_violated` | propext |
| `RichText.C66_markup` | propext, Quot.sound |
| `RichText.C66_grey` | propext, Quot.sound |
| `RichText.C66_color_partial` | propext, Classical.choice, Quot.sound |
| `RichText.C66_transparent_violated` | propext |
| `RichText.C68_absolute_partial` | propext, Classical.choice, Quot.sound |
| `RichText.C68_cost_violated` | propext, Classical.choice, Quot.sound |
| `RichText.C69_press_partial` | propext, Classical.choice, Quot.sound |
| `RichText.C69_hidden_violated` | propext, Classical.choice, Quot.sound |
| `RichText.C70_clicks_partial` | propext, Classical.choice, Quot.sound |
| `RichText.C70_first_violated` | propext, Classical.choice, Quot.sound |
| `RichText.C71_hover_partial` | propext, Classical.choice, Quot.sound |
| `RichText.C71_repeated_violated` | propext, Quot.sound |
| `RichText.C72_laid_out` | propext, Classical.choice, Quot.sound |
| `RichText.C72_home_end` | propext, Classical.choice, Quot.sound |
| `RichText.C72_click` | propext, Classical.choice, Quot.sound |
| `RichText.C73_positions` | propext, Classical.choice, Quot.sound |
| `RichText.C73_vertical` | propext, Classical.choice, Quot.sound |
| `RichText.C73_place_partial` | propext, Classical.choice, Quot.sound |
| `RichText.C73_distances` | propext, Classical.choice, Quot.sound |
| `RichText.C73_first_offset_violated` | propext, Classical.choice, Quot.sound |
| `RichText.C73_upside_down_violated` | propext, Classical.choice, Quot.sound |
| `RichText.C73_vertical_overlap_violated` | propext, Classical.choice, Quot.sound |
| `RichText.C74_origin_partial` | propext, Classical.choice, Quot.sound |
| `RichText.C74_run_partial` | propext, Classical.choice, Quot.sound |
| `RichText.C74_longer_violated` | propext, Quot.sound |
| `RichText.C74_shorter_violated` | propext |
| `RichText.C74_undefined_violated` | propext, Quot.sound |
| `RichText.C74_lost_violated` | propext, Classical.choice, Quot.sound |
| `RichText.C75_fill_partial` | propext, Classical.choice, Quot.sound |
| `RichText.C75_blit_partial` | propext, Classical.choice, Quot.sound |
| `RichText.C75_blend` | propext, Classical.choice, Quot.sound |
| `RichText.C75_fill_moved` | propext, Classical.choice, Quot.sound |
| `RichText.C75_blit_moved` | propext, Classical.choice, Quot.sound |
| `RichText.C75_fill_left_violated` | propext, Classical.choice, Quot.sound |
| `RichText.C75_blit_left_violated` | propext, Classical.choice, Quot.sound |
| `RichText.C75_fill_right_violated` | propext, Quot.sound |
| `RichText.C75_fill_wrap_violated` | propext, Quot.sound |
| `RichText.C76_channels` | propext, Classical.choice, Quot.sound |
| `RichText.C76_opaque_violated` | propext, Classical.choice, Quot.sound |
| `RichText.C76_opaque_partial` | propext, Classical.choice, Quot.sound |
| `RichText.C77_sublist` | propext, Classical.choice, Quot.sound |
| `RichText.C77_length` | propext, Classical.choice, Quot.sound |
| `RichText.C77_utf8` | propext, Classical.choice, Quot.sound |
| `RichText.C78_whole_partial` | propext, Classical.choice, Quot.sound |
| `RichText.C78_rich_violated` | propext, Classical.choice, Quot.sound |
| `RichText.C78_set_text_violated` | propext, Classical.choice, Quot.sound |
| `RichText.C79_refines` | propext, Quot.sound |
| `RichText.C79_advances` | propext, Classical.choice, Quot.sound |
| `RichText.C79_scale_violated` | propext, Quot.sound |
| `RichText.C79_scale_partial` | propext, Classical.choice, Quot.sound |
| `RichText.C80_rounding_violated` | propext, Quot.sound |
| `RichText.C80_rounding_partial` | propext, Classical.choice, Quot.sound |
| `RichText.C80_near` | propext, Classical.choice, Quot.sound |
| `RichText.C80_vertical` | propext, Classical.choice, Quot.sound |
| `RichText.C80_advances_partial` | propext, Classical.choice, Quot.sound |
| `RichText.C81_glyph` | propext, Classical.choice, Quot.sound |
| `RichText.C81_stroke_violated` | propext, Classical.choice, Quot.sound |
| `RichText.C81_stroke_partial` | propext, Classical.choice, Quot.sound |
| `RichText.C82_direction_violated` | propext, Classical.choice, Quot.sound |
| `RichText.C82_direction_partial` | propext, Classical.choice, Quot.sound |
| `RichText.C82_weights` | propext, Classical.choice, Quot.sound |
| `RichText.C83_unscaled_violated` | propext, Classical.choice, Quot.sound |
| `RichText.C83_unscaled_partial` | propext, Classical.choice, Quot.sound |
| `RichText.C84_accepted_iff` | propext, Classical.choice, Quot.sound |
| `RichText.C84_defined_violated` | propext, Classical.choice, Quot.sound |
| `RichText.C84_defined_partial` | propext, Classical.choice, Quot.sound |
| `RichText.C84_scripts_violated` | propext, Classical.choice, Quot.sound |
| `RichText.C84_registered_partial` | propext, Classical.choice, Quot.sound |
| `RichText.C84_directory` | propext, Classical.choice, Quot.sound |
| `RichText.C85_merged` | propext, Classical.choice, Quot.sound |
| `RichText.C85_contours_violated` | none |
| `RichText.C85_contours_partial` | propext, Classical.choice, Quot.sound |
| `RichText.C86_room` | propext, Classical.choice, Quot.sound |
| `RichText.C86_placed` | propext, Classical.choice, Quot.sound |
| `RichText.C86_defined` | propext, Classical.choice, Quot.sound |
| `RichText.C87_glyph_partial` | propext, Classical.choice, Quot.sound |
| `RichText.C87_stroke_partial` | propext, Classical.choice, Quot.sound |
| `RichText.C87_style_violated` | propext, Classical.choice, Quot.sound |
| `RichText.C87_empty_violated` | propext, Classical.choice, Quot.sound |
| `RichText.C87_baseline_violated` | propext, Classical.choice, Quot.sound |
| `RichText.C87_stroke_violated` | propext, Classical.choice, Quot.sound |
| `RichText.C88_size` | propext, Classical.choice, Quot.sound |
| `RichText.C88_fits` | propext, Classical.choice, Quot.sound |
| `RichText.C89_good` | propext, Classical.choice, Quot.sound |
| `RichText.C89_recalc` | propext, Classical.choice, Quot.sound |
| `RichText.C89_inside_partial` | propext, Classical.choice, Quot.sound |
| `RichText.C90_runs_partial` | propext, Classical.choice, Quot.sound |
| `RichText.C90_document` | propext, Classical.choice, Quot.sound |
| `RichText.C91_paragraphs` | propext, Classical.choice, Quot.sound |
| `RichText.C91_contract` | propext, Classical.choice, Quot.sound |
| `RichText.C91_inside_partial` | propext, Classical.choice, Quot.sound |
| `RichText.C91_fonts_partial` | propext, Classical.choice, Quot.sound |
| `RichText.C91_size` | propext, Classical.choice, Quot.sound |
| `RichText.C92_released` | propext, Classical.choice, Quot.sound |
| `RichText.C92_alive` | propext, Classical.choice, Quot.sound |
| `RichText.C92_windows` | propext, Classical.choice, Quot.sound |
| `RichText.C92_portable` | propext, Classical.choice, Quot.sound |
| `RichText.C92_linux_partial` | propext, Classical.choice, Quot.sound |
| `RichText.C92_leak_violated` | propext, Classical.choice, Quot.sound |
| `RichText.C92_functions_partial` | propext, Classical.choice, Quot.sound |
| `RichText.C92_functions_violated` | propext, Classical.choice, Quot.sound |
| `RichText.C93_build_exact` | propext, Classical.choice, Quot.sound |
| `RichText.C93_build_near` | propext, Classical.choice, Quot.sound |
| `RichText.C93_floats` | propext, Classical.choice, Quot.sound |
| `RichText.C93_limit_violated` | propext, Classical.choice, Quot.sound |
| `RichText.C94_built` | propext, Classical.choice, Quot.sound |
| `RichText.C94_lines` | propext, Classical.choice, Quot.sound |
| `RichText.C94_offset_near` | propext, Classical.choice, Quot.sound |
| `RichText.C94_ltr_monotone` | propext, Classical.choice, Quot.sound |
| `RichText.C94_rtl_antitone` | propext, Classical.choice, Quot.sound |
| `RichText.C94_range` | propext, Classical.choice, Quot.sound |
| `RichText.C94_abut` | propext, Classical.choice, Quot.sound |
| `RichText.C94_range_exact` | propext, Classical.choice, Quot.sound |
| `RichText.C94_caret` | propext, Classical.choice, Quot.sound |
| `RichText.C95_in_line_partial` | propext, Classical.choice, Quot.sound |
| `RichText.C95_ltr_nearest` | propext, Classical.choice, Quot.sound |
| `RichText.C95_rtl_nearest` | propext, Classical.choice, Quot.sound |
| `RichText.C95_nearest_violated` | propext, Classical.choice, Quot.sound |
| `RichText.ToolBar.C96_setup` | propext, Classical.choice, Quot.sound |
| `RichText.ToolBar.C96_places` | propext, Classical.choice, Quot.sound |
| `RichText.ToolBar.C96_open_partial` | propext, Classical.choice, Quot.sound |
| `RichText.ToolBar.C96_edge_violated` | propext, Classical.choice, Quot.sound |
| `RichText.ToolBar.C96_narrow_violated` | propext, Classical.choice, Quot.sound |
| `RichText.ToolBar.C96_settings` | propext, Classical.choice, Quot.sound |
| `RichText.ToolBar.C96_choose` | propext, Classical.choice, Quot.sound |
| `RichText.ToolBar.C96_highlight` | propext, Classical.choice, Quot.sound |
| `RichText.ToolBar.C96_highlight_violated` | propext, Classical.choice, Quot.sound |
| `RichText.Window.C97_box_partial` | propext, Classical.choice, Quot.sound |
| `RichText.Window.C97_drag_partial` | propext, Classical.choice, Quot.sound |
| `RichText.Window.C97_drag_violated` | propext, Classical.choice, Quot.sound |
| `RichText.Window.C97_keys_partial` | propext, Classical.choice, Quot.sound |
| `RichText.Window.C97_keys_violated` | propext, Classical.choice, Quot.sound |
| `RichText.Window.C97_size_violated` | propext, Classical.choice, Quot.sound |
| `RichText.Window.C97_margins` | propext, Classical.choice, Quot.sound |
| `RichText.Window.C97_tray_violated` | propext, Classical.choice, Quot.sound |
| `RichText.C98_highlight` | propext, Classical.choice, Quot.sound |
| `RichText.C98_text` | propext, Classical.choice, Quot.sound |
| `RichText.C98_no_selection` | propext, Classical.choice, Quot.sound |
| `RichText.C98_white_partial` | propext, Classical.choice, Quot.sound |
| `RichText.C98_white_violated` | propext, Classical.choice, Quot.sound |
| `RichText.C98_right_violated` | propext, Classical.choice, Quot.sound |
| `RichText.C98_empty_violated` | propext, Classical.choice, Quot.sound |
| `RichText.C98_plain` | propext, Classical.choice, Quot.sound |
| `RichText.C99_click_on_caret_partial` | propext, Classical.choice, Quot.sound |
| `RichText.C99_same_position_partial` | propext, Classical.choice, Quot.sound |
| `RichText.C99_bidi_violated` | propext, Classical.choice, Quot.sound |
| `RichText.C99_accent_violated` | propext, Classical.choice, Quot.sound |
| `RichText.C100_freed_once_partial` | propext, Classical.choice, Quot.sound |
| `RichText.C100_leak_violated` | propext, Classical.choice, Quot.sound |
| `RichText.C101_text` | propext, Quot.sound |
| `RichText.C101_codepoint` | propext, Quot.sound |
| `RichText.C101_name_partial` | propext, Quot.sound |
| `RichText.C101_prefix_violated` | none |
| `RichText.C101_long_violated` | propext, Quot.sound |
| `RichText.C101_extents` | propext, Classical.choice, Quot.sound |
| `RichText.C101_slant` | propext, Classical.choice, Quot.sound |
| `RichText.C101_contour` | propext, Quot.sound |
| `RichText.C102_paragraph_partial` | propext, Classical.choice, Quot.sound |
| `RichText.C102_calls_partial` | propext, Classical.choice, Quot.sound |
| `RichText.C102_layout_partial` | propext, Classical.choice, Quot.sound |
| `RichText.C102_final_separator_violated` | propext, Classical.choice, Quot.sound |
| `RichText.C102_merged_violated` | propext, Classical.choice, Quot.sound |
| `RichText.C102_space_direction_violated` | propext, Classical.choice, Quot.sound |
| `RichText.C102_height_violated` | propext, Classical.choice, Quot.sound |
| `RichText.C102_empty_buffer_violated` | propext, Classical.choice, Quot.sound |
| `RichText.Life.C103_builder_partial` | propext, Classical.choice, Quot.sound |
| `RichText.Life.C103_controller_partial` | propext, Classical.choice, Quot.sound |
| `RichText.Life.C103_controller_move_violated` | propext, Quot.sound |
| `RichText.Life.C103_builder_move_violated` | propext, Quot.sound |
| `RichText.Life.C103_build_partial` | propext, Quot.sound |
| `RichText.Life.C103_text_leak_violated` | propext, Quot.sound |
| `RichText.Life.C103_view_partial` | propext, Quot.sound |
| `RichText.Life.C103_view_violated` | none |
| `RichText.C104_sound` | propext, Classical.choice, Quot.sound |
| `RichText.C104_checked` | propext, Classical.choice, Quot.sound |
| `RichText.C104_in_range_partial` | propext, Classical.choice, Quot.sound |
| `RichText.C104_line_violated` | propext, Classical.choice, Quot.sound |
| `RichText.C104_wide_violated` | propext, Classical.choice, Quot.sound |
| `RichText.C105_request_partial` | propext, Classical.choice, Quot.sound |
| `RichText.C105_glyph` | propext, Classical.choice, Quot.sound |
| `RichText.C105_defined_iff` | propext, Classical.choice, Quot.sound |
| `RichText.C105_leak_violated` | propext, Classical.choice, Quot.sound |
| `RichText.C105_failure_violated` | propext, Classical.choice, Quot.sound |
| `RichText.C105_read` | propext, Quot.sound |
| `RichText.C105_nested_violated` | propext, Classical.choice, Quot.sound |
| `RichText.C106_height_partial` | propext, Classical.choice, Quot.sound |
| `RichText.C106_exact` | propext, Classical.choice, Quot.sound |
| `RichText.C106_height_violated` | propext, Classical.choice, Quot.sound |
| `RichText.C106_raised_partial` | propext, Classical.choice, Quot.sound |
| `RichText.C106_raised_violated` | propext, Classical.choice, Quot.sound |
| `RichText.C106_line` | propext, Classical.choice, Quot.sound |
| `RichText.C107_superscript_violated` | propext, Classical.choice, Quot.sound |
| `RichText.C107_mixed_violated` | propext, Classical.choice, Quot.sound |
| `RichText.C107_subscript_violated` | propext, Classical.choice, Quot.sound |
| `RichText.C107_outline_partial` | propext, Classical.choice, Quot.sound |
| `RichText.C108_position_partial` | propext, Classical.choice, Quot.sound |
| `RichText.C108_underline_violated` | propext, Classical.choice, Quot.sound |
| `RichText.C108_strikethrough_violated` | propext, Classical.choice, Quot.sound |
| `RichText.C109_drawn_partial` | propext, Classical.choice, Quot.sound |
| `RichText.C109_program_violated` | propext, Classical.choice, Quot.sound |
| `RichText.C110_rect` | propext, Classical.choice, Quot.sound |
| `RichText.C110_outline` | propext, Classical.choice, Quot.sound |
| `RichText.C110_glyph` | propext, Classical.choice, Quot.sound |
| `RichText.C110_clipped` | propext, Classical.choice, Quot.sound |
| `RichText.C110_selected_violated` | propext, Classical.choice, Quot.sound |
| `RichText.C110_padding_violated` | propext, Classical.choice, Quot.sound |
| `RichText.C110_decoration_partial` | propext, Classical.choice, Quot.sound |
| `RichText.C110_decoration_violated` | propext, Classical.choice, Quot.sound |
| `RichText.C111_median` | propext, Classical.choice, Quot.sound |
| `RichText.C111_opacity_partial` | propext, Classical.choice, Quot.sound |
| `RichText.C111_flat_violated` | propext, Classical.choice, Quot.sound |
| `RichText.C111_rect_partial` | propext, Classical.choice, Quot.sound |
| `RichText.C111_padding_violated` | propext, Classical.choice, Quot.sound |
| `RichText.C112_compile` | propext, Classical.choice, Quot.sound |
| `RichText.C112_running` | propext, Classical.choice, Quot.sound |
| `RichText.C112_main` | propext, Classical.choice, Quot.sound |
| `RichText.C113_layout_partial` | propext, Classical.choice, Quot.sound |
| `RichText.C113_bottom_violated` | propext, Classical.choice, Quot.sound |
| `RichText.C113_narrow_violated` | propext, Classical.choice, Quot.sound |
| `RichText.C113_pointer_partial` | propext, Classical.choice, Quot.sound |
| `RichText.C113_scale_violated` | propext, Classical.choice, Quot.sound |
| `RichText.C114_blink` | propext, Classical.choice, Quot.sound |
| `RichText.C114_moved_partial` | propext, Classical.choice, Quot.sound |
| `RichText.C114_typing_violated` | propext, Classical.choice, Quot.sound |
| `RichText.C115_index` | propext, Classical.choice, Quot.sound |
| `RichText.C115_counters` | propext, Classical.choice, Quot.sound |
| `RichText.C115_outside` | propext, Classical.choice, Quot.sound |
| `RichText.C115_layout` | propext, Classical.choice, Quot.sound |
| `RichText.C116_read_partial` | propext, Quot.sound |
| `RichText.C116_read_violated` | propext, Quot.sound |
| `RichText.C116_file_partial` | propext, Quot.sound |
| `RichText.C116_family_partial` | propext, Quot.sound |
| `RichText.C116_zero_violated` | propext, Quot.sound |
| `RichText.C116_short_violated` | propext, Quot.sound |
| `RichText.C116_data_partial` | propext, Quot.sound |
| `RichText.C116_data_violated` | propext, Quot.sound |
| `RichText.C117_document_partial` | propext, Classical.choice, Quot.sound |
| `RichText.C117_parts` | propext, Classical.choice, Quot.sound |
| `RichText.C117_ltr` | propext, Classical.choice, Quot.sound |
| `RichText.C117_formatting` | propext, Classical.choice, Quot.sound |
| `RichText.C117_violated` | propext, Classical.choice, Quot.sound |
| `RichText.C118_text` | propext, Classical.choice, Quot.sound |
| `RichText.C118_features` | propext, Classical.choice, Quot.sound |
| `RichText.C118_glyphs_partial` | propext, Classical.choice, Quot.sound |
| `RichText.C118_paragraph_partial` | propext, Classical.choice, Quot.sound |
| `RichText.C118_registry` | propext, Quot.sound |
| `RichText.C118_context_violated` | propext, Classical.choice, Quot.sound |
| `RichText.C119_race_free` | propext, Classical.choice, Quot.sound |
| `RichText.C119_exclusive` | propext, Classical.choice, Quot.sound |
| `RichText.C119_linearizable` | propext, Classical.choice, Quot.sound |
| `RichText.C119_progress` | propext, Classical.choice, Quot.sound |
| `RichText.C119_terminates` | propext |
| `RichText.C119_finish` | propext, Classical.choice, Quot.sound |
| `RichText.C119_safe_defined` | propext, Classical.choice, Quot.sound |
| `RichText.C119_safe_programs` | propext, Classical.choice, Quot.sound |
| `RichText.C119_assert_violated` | propext, Quot.sound |
| `RichText.ParagraphFonts.C120_shaping_partial` | propext, Classical.choice, Quot.sound |
| `RichText.ParagraphFonts.C120_text_partial` | propext, Classical.choice, Quot.sound |
| `RichText.ParagraphFonts.C120_paragraph_partial` | propext, Classical.choice, Quot.sound |
| `RichText.ParagraphFonts.C120_history_partial` | propext, Classical.choice, Quot.sound |
| `RichText.ParagraphFonts.C120_scaled_partial` | propext, Classical.choice, Quot.sound |
| `RichText.ParagraphFonts.C120_tabs_violated` | propext, Classical.choice, Quot.sound |
| `RichText.ParagraphFonts.C120_unloadable` | propext, Classical.choice, Quot.sound |
| `RichText.ParagraphFonts.C120_unloadable_violated` | propext, Quot.sound |
| `RichText.C121_runs` | propext, Classical.choice, Quot.sound |
| `RichText.C121_same_runs_partial` | propext, Classical.choice, Quot.sound |
| `RichText.C121_same_layout_partial` | propext, Classical.choice, Quot.sound |
| `RichText.C121_fonts_violated` | propext, Quot.sound |
| `RichText.BuildLibs.C122_text_partial` | propext, Classical.choice, Quot.sound |
| `RichText.BuildLibs.C122_history_partial` | propext, Classical.choice, Quot.sound |
| `RichText.BuildLibs.C122_document_partial` | propext, Classical.choice, Quot.sound |
| `RichText.BuildLibs.C122_blank_violated` | propext, Classical.choice, Quot.sound |
| `RichText.BuildLibs.C122_arguments` | propext, Classical.choice, Quot.sound |
| `RichText.BuildLibs.C122_fonts` | propext, Classical.choice, Quot.sound |
| `RichText.ThreadApp.C123_box_partial` | propext, Classical.choice, Quot.sound |
| `RichText.ThreadApp.C123_transcription` | propext, Classical.choice, Quot.sound |
| `RichText.C124_each_glyph` | propext, Classical.choice, Quot.sound |
| `RichText.C124_built` | propext, Classical.choice, Quot.sound |
| `RichText.C124_draw` | propext, Classical.choice, Quot.sound |
| `RichText.C125_split` | propext, Quot.sound |
| `RichText.C125_paragraph_partial` | propext, Classical.choice, Quot.sound |
| `RichText.C125_defined_partial` | propext, Classical.choice, Quot.sound |
| `RichText.C125_text_partial` | propext, Classical.choice, Quot.sound |
| `RichText.C125_layout_partial` | propext, Classical.choice, Quot.sound |
| `RichText.C125_cluster_violated` | propext, Classical.choice, Quot.sound |
| `RichText.C125_empty_run_violated` | propext, Classical.choice, Quot.sound |
| `RichText.C125_surrogate_violated` | propext, Classical.choice, Quot.sound |
| `RichText.C125_empty_text_violated` | propext, Classical.choice, Quot.sound |
| `RichText.C126_extents_partial` | propext, Classical.choice, Quot.sound |
| `RichText.C126_lines` | propext, Classical.choice, Quot.sound |
| `RichText.C126_extents_violated` | propext |
| `RichText.C126_origin_partial` | propext, Classical.choice, Quot.sound |
| `RichText.C126_origin_violated` | propext |
| `RichText.C126_kerning` | propext |
| `RichText.C127_runs` | propext, Classical.choice, Quot.sound |
| `RichText.C127_glyphs` | propext, Classical.choice, Quot.sound |
| `RichText.C127_both` | propext, Classical.choice, Quot.sound |
| `RichText.C127_tile` | propext, Classical.choice, Quot.sound |
| `RichText.BuildLibs.C127_immediate_partial` | propext, Classical.choice, Quot.sound |
| `RichText.BuildLibs.C127_empty` | propext, Classical.choice, Quot.sound |
| `RichText.ToolBar.C128_picture_partial` | propext, Classical.choice, Quot.sound |
| `RichText.ToolBar.C128_pixels` | propext, Classical.choice, Quot.sound |
| `RichText.ToolBar.C128_title` | propext, Classical.choice, Quot.sound |
| `RichText.ToolBar.C128_places` | propext, Classical.choice, Quot.sound |
| `RichText.ToolBar.C128_apart` | propext, Quot.sound |
| `RichText.ToolBar.C128_press_partial` | propext, Classical.choice, Quot.sound |
| `RichText.ToolBar.C128_areas` | propext, Classical.choice, Quot.sound |
| `RichText.ToolBar.C128_text_violated` | propext, Classical.choice, Quot.sound |
| `RichText.C129_greedy` | propext, Classical.choice, Quot.sound |
| `RichText.C129_fewest` | propext, Classical.choice, Quot.sound |
| `RichText.C129_fits` | propext, Classical.choice, Quot.sound |
| `RichText.C129_paragraph` | propext, Classical.choice, Quot.sound |
| `RichText.C129_tab_violated` | propext, Classical.choice, Quot.sound |
| `RichText.C130_records` | propext, Classical.choice, Quot.sound |
| `RichText.C130_flags` | propext, Quot.sound |
| `RichText.C130_override_violated` | propext, Quot.sound |
| `RichText.C130_levels_partial` | propext, Quot.sound |
| `RichText.C130_carry_violated` | propext, Quot.sound |
| `RichText.C130_heights_partial` | propext, Classical.choice, Quot.sound |
| `RichText.C130_heights_violated` | propext, Classical.choice, Quot.sound |
| `RichText.C130_glyphs_needed` | propext |
| `RichText.C130_reordered_violated` | propext, Classical.choice, Quot.sound |
| `RichText.C131_monotone` | propext, Classical.choice, Quot.sound |
| `RichText.C131_up` | propext, Classical.choice, Quot.sound |
| `RichText.C131_paragraph` | propext, Classical.choice, Quot.sound |
| `RichText.C131_text` | propext, Classical.choice, Quot.sound |
| `RichText.C131_zero_violated` | propext, Classical.choice, Quot.sound |
| `RichText.C131_tab_violated` | propext, Classical.choice, Quot.sound |
| `RichText.C131_height` | propext, Classical.choice, Quot.sound |
| `RichText.C131_height_violated` | propext, Classical.choice, Quot.sound |
| `RichText.C132_callback` | propext, Classical.choice, Quot.sound |
| `RichText.C132_answer` | propext, Quot.sound |
| `RichText.C132_pointer_partial` | propext, Classical.choice, Quot.sound |
| `RichText.C132_leak_violated` | propext, Classical.choice, Quot.sound |
| `RichText.C132_release` | propext, Classical.choice, Quot.sound |
| `RichText.C133_instances` | propext, Classical.choice, Quot.sound |
| `RichText.C133_reserve` | propext, Quot.sound |
| `RichText.C134_walk_partial` | propext, Classical.choice, Quot.sound |
| `RichText.C134_reach_partial` | propext, Classical.choice, Quot.sound |
| `RichText.C134_built` | propext, Classical.choice, Quot.sound |
| `RichText.C134_column_violated` | propext, Classical.choice, Quot.sound |
| `RichText.C134_rtl_violated` | propext, Classical.choice, Quot.sound |
| `RichText.C135_edit` | propext, Classical.choice, Quot.sound |
| `RichText.C135_edit_last` | propext, Classical.choice, Quot.sound |
| `RichText.C136_take_back` | propext, Classical.choice, Quot.sound |
| `RichText.C136_take_back_partial` | propext, Classical.choice, Quot.sound |
| `RichText.C136_retype` | propext, Classical.choice, Quot.sound |
| `RichText.C136_select_remove` | propext, Classical.choice, Quot.sound |
| `RichText.C136_accent_violated` | propext, Classical.choice, Quot.sound |
| `RichText.C136_collapsed_violated` | propext, Classical.choice, Quot.sound |
| `RichText.C137_steps` | propext, Classical.choice, Quot.sound |
| `RichText.C137_hanging_partial` | propext, Classical.choice, Quot.sound |
| `RichText.C137_quadratic_violated` | propext, Classical.choice, Quot.sound |
| `RichText.C138_documents` | propext, Classical.choice, Quot.sound |
| `RichText.C138_written` | propext, Classical.choice, Quot.sound |
| `RichText.C138_only` | propext, Classical.choice, Quot.sound |
| `RichText.C138_angle_violated` | propext, Classical.choice, Quot.sound |
| `RichText.C138_utf8` | propext, Classical.choice, Quot.sound |
| `RichText.C139_replace` | propext, Classical.choice, Quot.sound |
| `RichText.C139_type_delete` | propext, Classical.choice, Quot.sound |
| `RichText.C139_delete` | propext, Classical.choice, Quot.sound |
| `RichText.C139_inside_tag_violated` | propext, Quot.sound |
| `RichText.C140_remove_partial` | propext, Classical.choice, Quot.sound |
| `RichText.C140_typed` | propext, Classical.choice, Quot.sound |
| `RichText.C140_backspace_partial` | propext, Classical.choice, Quot.sound |
| `RichText.C140_accent_violated` | propext, Classical.choice, Quot.sound |
| `RichText.App.C141_shows` | propext, Classical.choice, Quot.sound |
| `RichText.App.C141_same` | propext, Classical.choice, Quot.sound |
| `RichText.App.C141_frame_partial` | propext, Classical.choice, Quot.sound |
| `RichText.App.C141_drawn` | propext, Classical.choice, Quot.sound |
| `RichText.App.C141_emptied_violated` | propext, Classical.choice, Quot.sound |
| `RichText.C142_run` | propext, Classical.choice, Quot.sound |
| `RichText.C142_highlight` | propext, Classical.choice, Quot.sound |
| `RichText.App.C142_copied` | propext, Classical.choice, Quot.sound |
| `RichText.C143_typed` | propext, Classical.choice, Quot.sound |
| `RichText.C143_history` | propext, Classical.choice, Quot.sound |
| `RichText.C144_copy` | propext, Classical.choice, Quot.sound |
| `RichText.C144_type_partial` | propext, Classical.choice, Quot.sound |
| `RichText.C144_click` | propext, Classical.choice, Quot.sound |
| `RichText.C144_violated` | propext, Classical.choice, Quot.sound |
| `RichText.C145_moved` | propext, Classical.choice, Quot.sound |
| `RichText.C145_all_violated` | propext, Classical.choice, Quot.sound |
| `RichText.C146_pasted_partial` | propext, Classical.choice, Quot.sound |
| `RichText.C146_violated` | propext, Classical.choice, Quot.sound |
| `RichText.C147_word_partial` | propext, Classical.choice, Quot.sound |
| `RichText.C147_start_violated` | propext, Classical.choice, Quot.sound |
| `RichText.C147_line_partial` | propext, Classical.choice, Quot.sound |
| `RichText.C147_rtl_violated` | propext, Classical.choice, Quot.sound |
| `RichText.C148_put_back_partial` | propext, Classical.choice, Quot.sound |
| `RichText.C148_nul_violated` | propext, Classical.choice, Quot.sound |
| `RichText.C149_reach` | propext, Classical.choice, Quot.sound |
| `RichText.C149_back` | propext, Classical.choice, Quot.sound |
| `RichText.C150_replaced_partial` | propext, Classical.choice, Quot.sound |
| `RichText.C150_joined_violated` | propext, Classical.choice, Quot.sound |
| `RichText.C151_cycle_partial` | propext, Classical.choice, Quot.sound |
| `RichText.C151_focus_violated` | propext, Classical.choice, Quot.sound |
| `RichText.C151_apart_violated` | propext, Classical.choice, Quot.sound |
| `RichText.C152_released_partial` | propext, Classical.choice, Quot.sound |
| `RichText.C152_word_violated` | propext, Classical.choice, Quot.sound |
| `RichText.C152_all_violated` | propext, Classical.choice, Quot.sound |
| `RichText.C153_typed_partial` | propext, Classical.choice, Quot.sound |
| `RichText.C153_rich` | propext, Classical.choice, Quot.sound |
| `RichText.C153_rich_violated` | propext, Classical.choice, Quot.sound |
| `RichText.C154_selects` | propext, Classical.choice, Quot.sound |
| `RichText.C154_typed_partial` | propext, Classical.choice, Quot.sound |
| `RichText.C154_same_violated` | propext, Classical.choice, Quot.sound |
| `RichText.C155_typed` | propext, Classical.choice, Quot.sound |
| `RichText.C155_removed` | propext, Classical.choice, Quot.sound |
| `RichText.C156_bytes` | propext, Classical.choice, Quot.sound |
| `RichText.C156_single_partial` | propext, Classical.choice, Quot.sound |
| `RichText.C156_paste_violated` | propext, Classical.choice, Quot.sound |
| `RichText.C157_holds_partial` | propext, Classical.choice, Quot.sound |
| `RichText.C157_kept` | propext, Classical.choice, Quot.sound |
| `RichText.C157_nothing` | propext, Classical.choice, Quot.sound |
| `RichText.C157_readonly` | propext, Classical.choice, Quot.sound |
| `RichText.C157_pasted_partial` | propext, Classical.choice, Quot.sound |
| `RichText.C157_nul_violated` | propext, Classical.choice, Quot.sound |
| `RichText.C158_same_caret` | propext, Classical.choice, Quot.sound |
| `RichText.C158_selects` | propext, Classical.choice, Quot.sound |
| `RichText.C158_typed_partial` | propext, Classical.choice, Quot.sound |
| `RichText.C158_removed_partial` | propext, Classical.choice, Quot.sound |
| `RichText.C158_back_violated` | propext, Classical.choice, Quot.sound |
| `RichText.C159_resumes` | propext, Classical.choice, Quot.sound |
| `RichText.C159_unbroken` | propext, Classical.choice, Quot.sound |
| `RichText.C160_before` | propext, Classical.choice, Quot.sound |
| `RichText.C160_behind` | propext, Classical.choice, Quot.sound |
| `RichText.C160_removes` | propext, Classical.choice, Quot.sound |
| `RichText.C161_line_partial` | propext, Classical.choice, Quot.sound |
| `RichText.C161_removes_partial` | propext, Classical.choice, Quot.sound |
| `RichText.C162_left` | propext, Classical.choice, Quot.sound |
| `RichText.C162_right` | propext, Classical.choice, Quot.sound |
| `RichText.C162_types` | propext, Classical.choice, Quot.sound |
