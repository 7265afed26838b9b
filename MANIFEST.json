{
 "claims": [
  {
   "property": "C01",
   "status": "proved",
   "theorems": [
    "Sang.c01_time_text_roundtrip"
   ],
   "note": "whole frames below 2^53, whole rates below 10^6"
  },
  {
   "property": "C02",
   "status": "proved",
   "theorems": [
    "Sang.c02_negative_time_text_roundtrip_iff"
   ],
   "note": "exact characterisation, including when it fails"
  },
  {
   "property": "C03",
   "status": "partial",
   "theorems": [
    "Sang.c03_comparison_agrees_with_frames_partial",
    "Sang.c03_trichotomy_partial",
    "Sang.c03_lt_trans",
    "Sang.c03_compare_number",
    "Sang.c03_int",
    "Sang.c166_order",
    "Sang.c166_fails_order"
   ],
   "note": "proved for finite times, and for infinite ones by c166_order; violated for a time that is NaN (c166_fails_order)"
  },
  {
   "property": "C04",
   "status": "proved",
   "theorems": [
    "Sang.c04_different_fps_refused",
    "Sang.c04_refused_only_for_different_fps"
   ],
   "note": ""
  },
  {
   "property": "C05",
   "status": "partial",
   "theorems": [
    "Sang.c05_equal_hash_partial",
    "Sang.c05_equal_hash_fails"
   ],
   "note": "the code violates the full contract when one fps is unknown; the refutation is c05_equal_hash_fails"
  },
  {
   "property": "C06",
   "status": "proved",
   "theorems": [
    "Sang.c06_negative_counts_from_end",
    "Sang.c06_negative_counts_from_end_whole",
    "Sang.c06_negative_needs_ref",
    "Sang.c06_negative_T",
    "Sang.c89_framecount"
   ],
   "note": ""
  },
  {
   "property": "C07",
   "status": "partial",
   "theorems": [
    "Sang.c07_order_and_blanks_irrelevant",
    "Sang.c07_whole_spec_value",
    "Sang.c07_decimal_spec_value_partial",
    "Sang.c07_mixed_signs_go_wrong"
   ],
   "note": "exact for whole numbers; within one part in 2^49 for any decimal amounts and any frame rate when hours, minutes and seconds go one way; refuted for mixed signs, where rounding can turn zero seconds negative"
  },
  {
   "property": "C08",
   "status": "partial",
   "theorems": [
    "Sang.c08_seconds_need_ref",
    "Sang.c08_decimal_seconds_need_ref_partial",
    "Sang.c08_frames_need_no_ref",
    "Sang.c07_mixed_signs_go_wrong"
   ],
   "note": "whole amounts of any sign; any decimal amounts going one way; refuted for mixed signs: 0.03m -1.8s is zero seconds but is refused"
  },
  {
   "property": "C09",
   "status": "partial",
   "theorems": [
    "Sang.c09_repeated_unit_refused",
    "Sang.c09_negative_frames_with_seconds_refused",
    "Sang.c09_decimal_negative_frames_refused_partial",
    "Sang.c09_mixed_signs_accepted"
   ],
   "note": "whole amounts of any sign; any decimal amounts going one way; refuted for mixed signs, where few seconds can be rounded to none"
  },
  {
   "property": "C10",
   "status": "partial",
   "theorems": [
    "Sang.c10_fps_positive_partial",
    "Sang.c10_bad_fps_refused_partial",
    "Sang.c166_rate"
   ],
   "note": "proved for rates that are finite numbers, and infinite ones by c166_rate; violated for NaN, which is accepted (c166_rate)"
  },
  {
   "property": "C100",
   "status": "partial",
   "theorems": [
    "Sang.c100_equals_itself",
    "Sang.c100_vector_equals_itself",
    "Sang.c100_gradient_equals_itself",
    "Sang.c100_transformation_equals_itself",
    "Sang.c100_canvas_differs_from_itself",
    "Sang.c100_unimplemented_raises"
   ],
   "note": "violated for canvases and for classes not yet implemented; proved for the others"
  },
  {
   "property": "C101",
   "status": "partial",
   "theorems": [
    "Sang.c101_int_partial",
    "Sang.c101_equal_iff_truncated"
   ],
   "note": "violated for floats"
  },
  {
   "property": "C102",
   "status": "partial",
   "theorems": [
    "Sang.c102_other_unequal_partial",
    "Sang.c102_number_raises",
    "Sang.c102_false_equals_none"
   ],
   "note": "violated for numbers and false booleans"
  },
  {
   "property": "C103",
   "status": "partial",
   "theorems": [
    "Sang.c103_text_is_true",
    "Sang.c103_compare_text"
   ],
   "note": "violated by every text but the empty one"
  },
  {
   "property": "C104",
   "status": "partial",
   "theorems": [
    "Sang.c104_frames_text_partial",
    "Sang.c104_seconds_text_unequal"
   ],
   "note": "violated for texts in seconds"
  },
  {
   "property": "C105",
   "status": "partial",
   "theorems": [
    "Sang.c105_equals_iff",
    "Sang.c105_equals_own_tuple_partial",
    "Sang.c105_equals_given_tuple_iff",
    "Sang.c105_alpha_default"
   ],
   "note": "violated for components that six decimals don't give back"
  },
  {
   "property": "C106",
   "status": "partial",
   "theorems": [
    "Sang.c106_symm_trans",
    "Sang.c106_vector_eq_partial",
    "Sang.c106_order_matters"
   ],
   "note": "violated if y comes before x in the file"
  },
  {
   "property": "C107",
   "status": "partial",
   "theorems": [
    "Sang.c107_parts",
    "Sang.c107_transformations_eq",
    "Sang.c107_given_dict_iff",
    "Sang.c107_wrong_keys_raise"
   ],
   "note": "violated for coordinates that ten decimals don't give back; c107_parts is for transformations as they are in files"
  },
  {
   "property": "C108",
   "status": "partial",
   "theorems": [
    "Sang.c108_assign_stop",
    "Sang.c108_history",
    "Sang.c108_other_positions_lost"
   ],
   "note": "violated for positions of more than six digits"
  },
  {
   "property": "C109",
   "status": "partial",
   "theorems": [
    "Sang.c109_replaced_partial",
    "Sang.c109_string_stays_animated",
    "Sang.c109_vector_broken",
    "Sang.c109_gradient_broken",
    "Sang.c109_transformation_broken"
   ],
   "note": "violated for texts, vectors, gradients and transformations"
  },
  {
   "property": "C11",
   "status": "proved",
   "theorems": [
    "Sang.c11_seconds",
    "Sang.c11_seconds_roundtrip"
   ],
   "note": ""
  },
  {
   "property": "C110",
   "status": "partial",
   "theorems": [
    "Sang.c110_others_refused_partial",
    "Sang.c110_mixed_list_destroys"
   ],
   "note": "violated by lists with anything but waypoints in them"
  },
  {
   "property": "C111",
   "status": "proved",
   "theorems": [
    "Sang.c111_read_modify_write"
   ],
   "note": ""
  },
  {
   "property": "C112",
   "status": "partial",
   "theorems": [
    "Sang.c112_index_partial",
    "Sang.c112_old_index_stays"
   ],
   "note": "violated after assigning to the same object"
  },
  {
   "property": "C113",
   "status": "partial",
   "theorems": [
    "Sang.c113_set_fails_partial",
    "Sang.c113_delete_fails_partial",
    "Sang.c113_add_fails_partial",
    "Sang.c113_foreign_time_destroys",
    "Sang.c113_foreign_zero_refused",
    "Sang.c113_detached_delete_destroys"
   ],
   "note": "violated by times from another animation, and by values that are not in a layer"
  },
  {
   "property": "C114",
   "status": "proved",
   "theorems": [
    "Sang.c114_write_read",
    "Sang.c114_write_read_bytes"
   ],
   "note": "text and bytes are modelled; gzip is not"
  },
  {
   "property": "C115",
   "status": "partial",
   "theorems": [
    "Sang.c115_survives_iff",
    "Sang.c115_opened_survives_partial",
    "Sang.c115_no_references",
    "Sang.c115_then_survives",
    "Sang.c115_lookup",
    "Sang.c115_resave_partial",
    "Sang.c115_fails"
   ],
   "note": "Violated for documents with tabs or line ends in attributes or carriage returns in text, which character references can put there and which are saved raw (c115_fails); it is proved for all others, that they are just those which survive (c115_survives_iff), and that all files without character references and all that were saved before are among those. Of gzip, that it undoes its own work is assumed."
  },
  {
   "property": "C116",
   "status": "proved",
   "theorems": [
    "Sang.c116_new_animation",
    "Sang.c116_new_contents",
    "Sang.c116_new_header",
    "Sang.c116_new_saved"
   ],
   "note": ""
  },
  {
   "property": "C117",
   "status": "proved",
   "theorems": [
    "Sang.c117_class",
    "Sang.c117_vector_class",
    "Sang.c117_animated_vector_class",
    "Sang.c117_color",
    "Sang.c117_color_missing",
    "Sang.c117_vector",
    "Sang.c117_gradient",
    "Sang.c117_transformation",
    "Sang.c117_transformation_missing",
    "Sang.c117_bool",
    "Sang.c117_simple"
   ],
   "note": ""
  },
  {
   "property": "C118",
   "status": "proved",
   "theorems": [
    "Sang.c118_list",
    "Sang.c118_last_one_counts",
    "Sang.c118_still"
   ],
   "note": ""
  },
  {
   "property": "C119",
   "status": "partial",
   "theorems": [
    "Sang.c119_real",
    "Sang.c119_real_refused",
    "Sang.c119_real_value_error",
    "Sang.c119_integer",
    "Sang.c119_integer_refused",
    "Sang.c119_integer_value_error",
    "Sang.c119_bool",
    "Sang.c119_time",
    "Sang.c119_string",
    "Sang.c119_string_none",
    "Sang.c119_vector",
    "Sang.c119_vector_refused",
    "Sang.c119_vector_bool_fails"
   ],
   "note": "violated for strings given None, and for vectors given booleans"
  },
  {
   "property": "C12",
   "status": "proved",
   "theorems": [
    "Sang.c12_lookup_ignores_case_and_underscores"
   ],
   "note": "letter case is ASCII case"
  },
  {
   "property": "C120",
   "status": "partial",
   "theorems": [
    "Sang.c120_places",
    "Sang.c120_class",
    "Sang.c120_numbers",
    "Sang.c120_bool",
    "Sang.c120_string",
    "Sang.c120_time",
    "Sang.c120_color",
    "Sang.c120_vector",
    "Sang.c120_gradient",
    "Sang.c120_transformation",
    "Sang.c120_waypoints",
    "Sang.c120_fps",
    "Sang.c120_layer",
    "Sang.c120_desc_changes",
    "Sang.c120_params",
    "Sang.c120_layers"
   ],
   "note": "violated for attributes with tabs or line ends (proved); blank text is C31; times in waypoints must be text, or at whole frames of the animation's rate"
  },
  {
   "property": "C121",
   "status": "partial",
   "theorems": [
    "Sang.c121_canvas_assignment_fails",
    "Sang.c121_empty_partial",
    "Sang.c121_own_layers_lost"
   ],
   "note": "violated by the code for every list that isn't empty (proved)"
  },
  {
   "property": "C122",
   "status": "partial",
   "theorems": [
    "Sang.c122_real",
    "Sang.c122_integer",
    "Sang.c122_bool",
    "Sang.c122_angle",
    "Sang.c122_string",
    "Sang.c122_color",
    "Sang.c122_vector",
    "Sang.c122_gradient",
    "Sang.c122_transformation",
    "Sang.c122_time_zero",
    "Sang.c122_time_frames",
    "Sang.c122_time_fails",
    "Sang.c122_blend_method_fails",
    "Sang.c122_animated_fails"
   ],
   "note": "violated by times of a second or more, blend methods and animated values (proved)"
  },
  {
   "property": "C123",
   "status": "partial",
   "theorems": [
    "Sang.c123_real",
    "Sang.c123_integer",
    "Sang.c123_others",
    "Sang.c123_angle",
    "Sang.c123_vector",
    "Sang.c123_color",
    "Sang.c123_animated",
    "Sang.c123_animated_gradient_mixed",
    "Sang.c123_animated_gradient_fails",
    "Sang.c123_animated_color_eq_text",
    "Sang.c123_repr"
   ],
   "note": "violated by animated gradients (proved)"
  },
  {
   "property": "C124",
   "status": "partial",
   "theorems": [
    "Sang.c124_history",
    "Sang.c124_new_animation",
    "Sang.c124_new_value",
    "Sang.c124_new_waypoint",
    "Sang.c124_taken",
    "Sang.c124_new_layer",
    "Sang.c124_new_text",
    "Sang.c124_control_character_fails",
    "Sang.c124_dict_key_fails"
   ],
   "note": "arguments must be free of characters XML forbids; that nothing checks this is proved"
  },
  {
   "property": "C125",
   "status": "partial",
   "theorems": [
    "Sang.c125_stroop_rest",
    "Sang.c125_stroop",
    "Sang.c125_stroop_works",
    "Sang.c125_french_rest",
    "Sang.c125_french",
    "Sang.c125_french_works",
    "Sang.c125_files",
    "Sang.c125_stroop_file",
    "Sang.c125_french_file",
    "Sang.c125_unknown_layer_fails",
    "Sang.c125_no_color_fails"
   ],
   "note": "one layer of an unknown type, or a blue text without a colour, stops it (proved)"
  },
  {
   "property": "C126",
   "status": "partial",
   "theorems": [
    "Sang.c126_rest",
    "Sang.c126_items",
    "Sang.c126_texts_partial",
    "Sang.c126_file",
    "Sang.c126_subtitles",
    "Sang.c126_no_text_fails",
    "Sang.c126_no_rate_fails"
   ],
   "note": "c126_texts_partial needs a known frame rate, times that aren't tiny, texts that are strings (without them it fails, proved), and text layers and bywords groups which aren't in one another; c126_rest and c126_file need nothing"
  },
  {
   "property": "C127",
   "status": "partial",
   "theorems": [
    "Sang.c127_one_statement_partial",
    "Sang.c127_any_program_partial",
    "Sang.c127_child_changed",
    "Sang.c127_adding_layers_partial",
    "Sang.c127_append_hides_param"
   ],
   "note": "for params which are the layer's own and come before any nested one of the same name, with values that have no layers in them; otherwise it fails (proved)"
  },
  {
   "property": "C128",
   "status": "partial",
   "theorems": [
    "Sang.c128_order_is_free_partial",
    "Sang.c128_any_order_partial"
   ],
   "note": "for params which are the layer's own and come before any nested one of the same name; otherwise C54 fails"
  },
  {
   "property": "C129",
   "status": "partial",
   "theorems": [
    "Sang.c129_last_value_counts_partial",
    "Sang.c129_vectors_pile_up",
    "Sang.newValue_class",
    "Sang.c129_last_subscript_counts_partial",
    "Sang.c129_last_attribute_counts"
   ],
   "note": "fails for the value of a vector (proved, for all vectors)"
  },
  {
   "property": "C13",
   "status": "proved",
   "theorems": [
    "Sang.c13_last_registration_wins",
    "Sang.c13_keyerror_iff_unregistered"
   ],
   "note": ""
  },
  {
   "property": "C130",
   "status": "partial",
   "theorems": [
    "Sang.c130_depth",
    "Sang.c130_layer_text",
    "Sang.c130_text_layer_text",
    "Sang.c130_fails_only",
    "Sang.c130_without_text",
    "Sang.c130_symbols",
    "Sang.c130_tells_layers_apart",
    "Sang.c130_canvas_text",
    "Sang.c130_tells_canvases_apart"
   ],
   "note": "text layers without a readable text raise (proved); otherwise complete"
  },
  {
   "property": "C131",
   "status": "proved",
   "theorems": [
    "Sang.c131_waypoint_text",
    "Sang.c131_tells_waypoints_apart",
    "Sang.c131_same_frame",
    "Sang.c131_still_timeline",
    "Sang.c131_timeline_text"
   ],
   "note": ""
  },
  {
   "property": "C132",
   "status": "proved",
   "theorems": [
    "Sang.c132_names",
    "Sang.c132_gap",
    "Sang.c132_lines",
    "Sang.c132_stops",
    "Sang.c132_program",
    "Sang.c132_twice"
   ],
   "note": ""
  },
  {
   "property": "C133",
   "status": "partial",
   "theorems": [
    "Sang.c133_names",
    "Sang.c133_fails_iff",
    "Sang.c133_entry",
    "Sang.c133_symbol_partial",
    "Sang.c133_leaks",
    "Sang.c133_rotate"
   ],
   "note": "the symbol of a class is replaced by one set after its body (proved, in general and for the project's own files)"
  },
  {
   "property": "C134",
   "status": "proved",
   "theorems": [
    "Sang.c134_integer_text",
    "Sang.c134_angle_text",
    "Sang.c134_real_text",
    "Sang.c134_integer_decimal",
    "Sang.c134_string_text"
   ],
   "note": ""
  },
  {
   "property": "C135",
   "status": "partial",
   "theorems": [
    "Sang.c135_gradient",
    "Sang.c135_transformation_partial",
    "Sang.c135_part_twice",
    "Sang.c135_vector_partial",
    "Sang.c135_vector_order",
    "Sang.c135_vector_animated",
    "Sang.c135_timeline"
   ],
   "note": "violated by vectors with y before x, by animated vectors and by transformations with a part twice; proved for all others"
  },
  {
   "property": "C136",
   "status": "proved",
   "theorems": [
    "Sang.c136_found_iff",
    "Sang.c136_number",
    "Sang.c136_text",
    "Sang.c136_set_then_found",
    "Sang.c136_comparing_raises",
    "Sang.c136_text_raises",
    "Sang.c136_passed_over",
    "Sang.c136_none_raises",
    "Sang.c136_blend_raises",
    "Sang.c149_extends"
   ],
   "note": "Searching by a time is C149; that it is the same search otherwise is c149_extends."
  },
  {
   "property": "C137",
   "status": "partial",
   "theorems": [
    "Sang.c137_what_text_is_a_colour",
    "Sang.c137_other_characters_refused",
    "Sang.c137_other_lengths_refused",
    "Sang.c137_other_things_refused",
    "Sang.c137_signs_accepted"
   ],
   "note": "violated: signs and blanks are let through (c137_signs_accepted, for all digits); exactly what is accepted is proved for all ASCII texts; characters beyond ASCII are not modelled by int()"
  },
  {
   "property": "C138",
   "status": "proved",
   "theorems": [
    "Sang.c138_only_that_element",
    "Sang.c138_only_the_value",
    "Sang.c138_only_the_attribute",
    "Sang.c138_header",
    "Sang.c138_layer_is_put_in"
   ],
   "note": "for elements with at most one attribute of each name, and for adding layers where the group's canvas isn't written as an empty element"
  },
  {
   "property": "C139",
   "status": "partial",
   "theorems": [
    "Sang.c139_again_partial",
    "Sang.c139_order_partial",
    "Sang.c139_twice_partial",
    "Sang.c139_text_lost",
    "Sang.c139_order_matters"
   ],
   "note": "under the conditions under which C126 says what bywords does, if no layer is in a text layer and no param is called type_; with a bywords group in another the order matters, and a layer which gets a word the first time and none the second loses its text (both proved)"
  },
  {
   "property": "C14",
   "status": "proved",
   "theorems": [
    "Sang.c14_load_by_magic",
    "Sang.c14_load_ignores_name",
    "Sang.c14_save_by_extension",
    "Sang.c14_save_needs_extension",
    "Sang.c14_save_total"
   ],
   "note": ""
  },
  {
   "property": "C140",
   "status": "partial",
   "theorems": [
    "Sang.c140_one_way",
    "Sang.c140_only_value_error",
    "Sang.c140_unreadable_refused",
    "Sang.c140_nothing_else_counts",
    "Sang.c140_frames_alone",
    "Sang.c140_value",
    "Sang.c140_accepted_iff",
    "Sang.c140_fails_number_is_zero",
    "Sang.c140_digit_refused"
   ],
   "note": "Proved in full, exactly which texts are accepted and what they mean, except that the last clause is false: a piece with an unknown unit is accepted and counts for nothing, so that T(\"12\") is zero frames (c140_fails_number_is_zero), while T(\"5\") is refused."
  },
  {
   "property": "C141",
   "status": "proved",
   "theorems": [
    "Sang.c141_keyframe_text",
    "Sang.c141_keyframe_fails",
    "Sang.c141_tells_keyframes_apart",
    "Sang.c141_animation_text",
    "Sang.c141_keyframes_text",
    "Sang.c141_keyframes_fail",
    "Sang.c141_tells_keyframe_lists_apart",
    "Sang.c141_same_frame"
   ],
   "note": "What is shown of the time is the text of a T, which tells whole frames apart (c141_same_frame); other times can share a text (C01)."
  },
  {
   "property": "C142",
   "status": "partial",
   "theorems": [
    "Sang.c142_header",
    "Sang.c142_size",
    "Sang.c142_viewbox_background",
    "Sang.c142_times",
    "Sang.c142_name_desc",
    "Sang.c142_keyframes",
    "Sang.c142_open_set_save_partial",
    "Sang.c142_fails_tab"
   ],
   "note": "Fails for text with tabs or line ends in an attribute, which XML reads as spaces (c142_fails_tab), and for blank names and descriptions, hence the hypotheses PlainAttrs and Lasting, which every opened file meets (if no character references put such characters there, Direct) and setting header fields keeps."
  },
  {
   "property": "C143",
   "status": "proved",
   "theorems": [
    "Sang.c143_other_documents"
   ],
   "note": ""
  },
  {
   "property": "C144",
   "status": "proved",
   "theorems": [
    "Sang.c144_set",
    "Sang.c144_assign_object",
    "Sang.c144_assign_plain",
    "Sang.c144_unanimate"
   ],
   "note": "un-animating: for values that are in something; assigning a value object: one that isn't in a document (otherwise it is moved, C72)"
  },
  {
   "property": "C145",
   "status": "partial",
   "theorems": [
    "Sang.c145_active",
    "Sang.c145_excluded",
    "Sang.c145_described",
    "Sang.c145_undescribed",
    "Sang.c145_version",
    "Sang.c145_searches_work",
    "Sang.c145_bad_version_raises"
   ],
   "note": "a search by version raises if any layer's version isn't a number (c145_bad_version_raises)"
  },
  {
   "property": "C146",
   "status": "partial",
   "theorems": [
    "Sang.c146_rest",
    "Sang.c146_last_use_partial",
    "Sang.c146_again_partial",
    "Sang.c146_no_undo"
   ],
   "note": "By induction over the uses: nothing in the document but what is in params called 'text' ever changes (`untext`), what bywords finds can be told from the rest, and a text with a schedule can be un-animated again. Conditions: no scheduled time is tiny (C93), no text layer or bywords group in another, and the values of params called 'text' and 'type_' have no layers or params in them. In memory: that the file read back is the animation saved is C126 and C139. A use with other subtitles does not give back what a text was before the first (c146_no_undo)."
  },
  {
   "property": "C147",
   "status": "partial",
   "theorems": [
    "Sang.c147_text_is_type",
    "Sang.c147_class_is_type",
    "Sang.c147_class_is_name",
    "Sang.c147_attrs_are_criteria",
    "Sang.c147_refused",
    "Sang.c147_special_ignores",
    "Sang.c147_together_finds_either",
    "Sang.c147_order",
    "Sang.c147_order_of_exceptions_fails"
   ],
   "note": "everything holds of searches that end without an exception; the order decides whether an exception is raised at all (c147_order_of_exceptions_fails), and what is refused is not refused with the ValueError the code means to raise (c147_refused)"
  },
  {
   "property": "C148",
   "status": "partial",
   "theorems": [
    "Sang.c148_reads",
    "Sang.c148_history",
    "Sang.c148_angle_partial",
    "Sang.c148_vector_partial",
    "Sang.c148_others_lost",
    "Sang.c148_whole_unreadable",
    "Sang.c148_restored",
    "Sang.c148_search_raises",
    "Sang.c148_animated"
   ],
   "note": "violated for every group, as for C29, and for every animated transformation; proved: what each assignment sequence comes to, exactly."
  },
  {
   "property": "C149",
   "status": "partial",
   "theorems": [
    "Sang.c149_number",
    "Sang.c149_text",
    "Sang.c149_seconds_never_found",
    "Sang.c149_time_object",
    "Sang.c149_time_object_refused",
    "Sang.c149_unreadable_raises",
    "Sang.c149_set_then_found",
    "Sang.c149_extends"
   ],
   "note": "violated for text in seconds (c149_seconds_never_found) and for times from other animations (c149_time_object); what is found for numbers, texts and times is proved exactly."
  },
  {
   "property": "C15",
   "status": "proved",
   "theorems": [
    "Sang.c15_save_then_open",
    "Sang.c15_save_then_open_xml"
   ],
   "note": "relative to the laws of the codecs (Codec.Lawful), which c15_save_then_open_xml proves for XML and UTF-8, leaving gzip"
  },
  {
   "property": "C150",
   "status": "partial",
   "theorems": [
    "Sang.c150_reads_back_iff",
    "Sang.c150_roundtrip_partial",
    "Sang.c150_six_digits_exact",
    "Sang.c150_before_the_start",
    "Sang.c150_fails_refused",
    "Sang.c150_fails_before_start",
    "Sang.c150_fails",
    "Sang.c150_without_rate"
   ],
   "note": "violated: times are rounded to six digits (how far, c150_roundtrip_partial; when not at all, c150_six_digits_exact). Exactly which times come back is c150_reads_back_iff; those less than 0.00009999995 of a frame past a second can't be read back or come out before the start (c150_fails_refused, c150_fails_before_start). Times before the start are the mirror images of those after it if they have at most one of hours, minutes and seconds (c150_before_the_start); for others see C02."
  },
  {
   "property": "C151",
   "status": "partial",
   "theorems": [
    "Sang.c151_runs_partial",
    "Sang.c151_twice_partial",
    "Sang.c151_second_run_fails"
   ],
   "note": "violated for words or letters which begin a tiny part of a frame after a whole second (c151_second_run_fails). Proved where all begin on a whole second or at least a ten-thousandth of a frame after one, the frame rate is a whole number, no layer is in a text layer, none of the parameters is called type_, and the file has no line ends or tabs in attributes and no carriage returns in text (which take character references), under C146's conditions."
  },
  {
   "property": "C152",
   "status": "partial",
   "theorems": [
    "Sang.c152_run_partial",
    "Sang.c152_runs_partial",
    "Sang.c152_killed_fails",
    "Sang.c152_each_fails"
   ],
   "note": "violated for every run that would succeed (c152_killed_fails, c152_each_fails). Proved: other files don't change, and the file always holds some beginning of what a run left in it."
  },
  {
   "property": "C153",
   "status": "partial",
   "theorems": [
    "Sang.c153_others",
    "Sang.c153_bytes_partial",
    "Sang.c153_same_partial",
    "Sang.c153_locked_partial",
    "Sang.c153_mixed",
    "Sang.c153_neither",
    "Sang.c153_third"
   ],
   "note": "violated (c153_mixed, c153_neither, c153_third). Proved for processes that save the same, and for processes that take turns; and what holds of each byte in any case."
  },
  {
   "property": "C154",
   "status": "partial",
   "theorems": [
    "Sang.c154_stepwise_locked_partial",
    "Sang.c154_stepwise_any_order",
    "Sang.c154_stepwise_lost",
    "Sang.c154_stepwise_empty",
    "Sang.c154_stepwise_patched",
    "Sang.c154_stepwise_third",
    "Sang.c154_stepwise_width_lost",
    "Sang.c154_locked_partial",
    "Sang.c154_any_order",
    "Sang.c154_lost",
    "Sang.c154_empty",
    "Sang.c154_width_lost"
   ],
   "note": "violated for any two programs that would each succeed alone: one may leave nothing of what it did (lost), find the file empty (empty), or work on a mixture of the old file and the new one (patched; third, where the file comes to hold a width nobody chose). Proved where none begins while another is busy. In the theorems called stepwise each process opens the file twice and reads it piece by piece; in the others it is read at one moment."
  },
  {
   "property": "C155",
   "status": "proved",
   "theorems": [
    "Sang.c155_any_writing",
    "Sang.c155_same",
    "Sang.c155_writable"
   ],
   "note": "names are of ASCII characters; comments and processing instructions inside the root, CDATA and namespaces are not modelled"
  },
  {
   "property": "C156",
   "status": "partial",
   "theorems": [
    "Sang.c156_blank_partial",
    "Sang.c156_before_fails",
    "Sang.c156_after_fails",
    "Sang.c156_no_root"
   ],
   "note": "Violated by every file with anything but white space outside its root (c156_before_fails, c156_after_fails); proved for white space alone. What comes after the start of a comment is not looked at by the model, so it need not be well-formed."
  },
  {
   "property": "C157",
   "status": "partial",
   "theorems": [
    "Sang.c157_waypoints_partial",
    "Sang.c157_apart_partial",
    "Sang.c157_order_partial",
    "Sang.c157_fails_unreadable",
    "Sang.c157_fails_few",
    "Sang.c157_fails_order",
    "Sang.c157_fails_order_film"
   ],
   "note": "Violated for times a tiny part of a frame past a second and for times too near to each other (c157_fails_unreadable, c157_fails_few), and for the order at rates of more than six digits (c157_fails_order) and at 23.976 (c157_fails_order_film). Proved otherwise, at any frame rate up to 999999: each waypoint moves by at most five millionths of a second (c157_waypoints_partial), and none is lost and all keep their order if they are further apart than they can move (c157_apart_partial). At whole frame rates the order is never reversed (c157_order_partial)."
  },
  {
   "property": "C158",
   "status": "partial",
   "theorems": [
    "Sang.c158_near_iff",
    "Sang.c158_eighths",
    "Sang.c158_saved",
    "Sang.c158_fails",
    "Sang.c158_fails_digits"
   ],
   "note": "Violated: c158_fails at 29.97 frames per second, and c158_fails_digits whenever the frames past the second need more than six digits. Proved: exactly which times come back to within five millionths of a second, at any rate (c158_near_iff); that whole frames come back exactly at rates in eighths (c158_eighths), and so do the waypoints of an animation (c158_saved)."
  },
  {
   "property": "C159",
   "status": "partial",
   "theorems": [
    "Sang.c159_copied_partial",
    "Sang.c159_added_copied_partial",
    "Sang.c159_own_value_is_lost",
    "Sang.c159_own_waypoint_is_lost"
   ],
   "note": "Violated for a value's own timeline, always (c159_own_value_is_lost, c159_own_waypoint_is_lost). Proved for every other value."
  },
  {
   "property": "C16",
   "status": "proved",
   "theorems": [
    "Sang.c16_other_files_untouched"
   ],
   "note": ""
  },
  {
   "property": "C160",
   "status": "partial",
   "theorems": [
    "Sang.c160_integer",
    "Sang.c160_bool",
    "Sang.c160_angle",
    "Sang.c160_string",
    "Sang.c160_time",
    "Sang.c160_real_iff",
    "Sang.c160_real_near_partial",
    "Sang.c160_fine_real_changed",
    "Sang.c160_color_partial",
    "Sang.c160_color_components_change",
    "Sang.c160_vector_partial",
    "Sang.c160_gradient",
    "Sang.c160_transformation_lost",
    "Sang.c160_animated_text_lost",
    "Sang.c160_animated_vector_lost",
    "Sang.c160_desc",
    "Sang.c160_layer_attributes",
    "Sang.c160_default_version_becomes_number",
    "Sang.c160_header",
    "Sang.c160_end_time",
    "Sang.c121_own_layers_lost"
   ],
   "note": "Violated for transformations, canvases, animated texts and vectors, fine reals, components of colours and default versions, each shown in general or by a concrete value. Times between frames are left to C150 and C158."
  },
  {
   "property": "C161",
   "status": "partial",
   "theorems": [
    "Sang.c161_undisturbed_partial",
    "Sang.c161_ends",
    "Sang.c161_saved_over_partial",
    "Sang.c161_patched",
    "Sang.c161_empty",
    "Sang.c161_third"
   ],
   "note": "violated (c161_patched, c161_empty, c161_third); proved: what is read with one process saving, exactly, and that all is well if the file stays the same meanwhile. Pieces may be of any size, which is more than an operating system does with small files."
  },
  {
   "property": "C162",
   "status": "partial",
   "theorems": [
    "Sang.c162_others",
    "Sang.c162_in_turn_partial",
    "Sang.c162_incomplete",
    "Sang.c162_mixed"
   ],
   "note": "violated for any two texts (c162_incomplete, c162_mixed); proved where they take turns, and that other files are left alone. Each process is taken to have read the file already."
  },
  {
   "property": "C163",
   "status": "partial",
   "theorems": [
    "Sang.c163_enough",
    "Sang.c163_short",
    "Sang.c163_retry",
    "Sang.c163_after_any",
    "Sang.c163_old_lost"
   ],
   "note": "violated: the old contents are lost (c163_old_lost, where less than two bytes can be written; what becomes of longer ones depends on how lenient the XML parser is, which isn't modelled). The rest is proved."
  },
  {
   "property": "C164",
   "status": "partial",
   "theorems": [
    "Sang.c164_run_again_partial",
    "Sang.c164_fails"
   ],
   "note": "violated where C62 is (c164_fails). Proved for files in which no block has a line naming a class in it or starts inside another, and replacements without markers."
  },
  {
   "property": "C165",
   "status": "proved",
   "theorems": [
    "Sang.c165_store",
    "Sang.c165_store_xml",
    "Sang.c165_last",
    "Sang.c165_others",
    "Sang.c165_case",
    "Sang.c165_crash"
   ],
   "note": "of documents which can be written (xmlCodec). What a save that raises halfway leaves behind is C18, C17 and C163. c165_crash: if the program dies while saving, every other file still holds what it held."
  },
  {
   "property": "C166",
   "status": "partial",
   "theorems": [
    "Sang.c166_agrees",
    "Sang.c166_only_value_error",
    "Sang.c166_no_text_iff",
    "Sang.c166_infinite_no_text",
    "Sang.c166_read_back",
    "Sang.c166_order",
    "Sang.c166_fails_order",
    "Sang.c166_rate",
    "Sang.c166_values",
    "Sang.c166_values_agree",
    "Sang.c166_equal_itself",
    "Sang.c166_too_large",
    "Sang.c166_cases",
    "Sang.c166_reads_infinity",
    "Sang.c166_opposed"
   ],
   "note": "violated: exactly which times have no text is c166_no_text_iff; NaN breaks the order (c166_fails_order; without it there is one, c166_order); a rate may be NaN (c166_rate); which reals equal themselves is c166_equal_itself. What a failed save does to the file is C18 (c18_render_error_destroys_target). c166_agrees says that the model is the one of the other properties where all is finite."
  },
  {
   "property": "C167",
   "status": "partial",
   "theorems": [
    "Sang.c167_gradients",
    "Sang.c167_equals_dict",
    "Sang.c167_fails_digits"
   ],
   "note": "violated for positions of more than six digits; for others c167_equals_dict says that the gradient equals the dict"
  },
  {
   "property": "C168",
   "status": "partial",
   "theorems": [
    "Sang.c168_reckoned",
    "Sang.c168_same_moment_iff",
    "Sang.c168_unsaved",
    "Sang.c168_length",
    "Sang.c168_faster",
    "Sang.c168_slower_fails",
    "Sang.c168_slower_fails_timeline"
   ],
   "note": "violated: c168_reckoned says where times get to and c168_same_moment_iff when that is the same moment; c168_faster says that a timeline keeps its waypoints and their order if the rate isn't lowered, c168_slower_fails that it needn't if it is"
  },
  {
   "property": "C169",
   "status": "proved",
   "theorems": [
    "Sang.c169_groups_are_lists",
    "Sang.c169_none_lost"
   ],
   "note": "what happens when something is put inside itself is C95"
  },
  {
   "property": "C17",
   "status": "partial",
   "theorems": [
    "Sang.c17_crash_partial",
    "Sang.c17_crash_safety_fails"
   ],
   "note": "violated by the code; c17_crash_safety_fails refutes it for every overwriting save"
  },
  {
   "property": "C170",
   "status": "partial",
   "theorems": [
    "Sang.Dom.c170_new_home",
    "Sang.Dom.c170_times",
    "Sang.Dom.c170_faster",
    "Sang.Dom.c170_loose",
    "Sang.Dom.c170_slower_fails",
    "Sang.Dom.c170_slower_fails_timeline"
   ],
   "note": "The layer is kept whole and nothing else changes, but its times are reckoned with the new rate. If that is no less, waypoints keep their order, at the same seconds and frames; if it is less, order is not kept (proved for all pairs of rates, and for a whole timeline in a concrete case)."
  },
  {
   "property": "C171",
   "status": "partial",
   "theorems": [
    "Sang.c171_loop",
    "Sang.c171_all_moved",
    "Sang.c171_assign",
    "Sang.c171_own_group_fails"
   ],
   "note": "Proved for moves to other groups. Appending to the group that the loop is over always raises ValueError if there are any layers; none is lost."
  },
  {
   "property": "C172",
   "status": "partial",
   "theorems": [
    "Sang.c172_reorder_partial",
    "Sang.Dom.c172_others_partial",
    "Sang.Dom.c172_some_last_partial",
    "Sang.c172_first_was_last_fails",
    "Sang.c172_reverse_fails"
   ],
   "note": "Proved for all orders that don't begin with the last layer; for all others it is violated. c172_others_partial adds that no other group changes, and c172_some_last_partial is for a list of some of the layers."
  },
  {
   "property": "C173",
   "status": "proved",
   "theorems": [
    "Sang.c173_delete_all",
    "Sang.c173_earlier",
    "Sang.c173_later",
    "Sang.c173_forwards",
    "Sang.c173_forwards_loses"
   ],
   "note": "c173_forwards_loses shows that going forwards with a positive d really does go wrong whenever two waypoints are d apart."
  },
  {
   "property": "C174",
   "status": "proved",
   "theorems": [
    "Sang.Dom.c174_found",
    "Sang.Dom.c174_len",
    "Sang.Dom.c174_same_layers",
    "Sang.Dom.findLayers_node"
   ],
   "note": "findLayers_node says that the objects found in memory are those of C50 and C48."
  },
  {
   "property": "C175",
   "status": "partial",
   "theorems": [
    "Sang.c175_never_in",
    "Sang.c175_in_group_fails",
    "Sang.c175_in_is",
    "Sang.c175_in_is_iff",
    "Sang.c175_flat_never_in",
    "Sang.c175_only_params"
   ],
   "note": "Violated: the group is asked for a parameter and the layer, being callable, is used as a function on the names of parameters. c175_never_in: a layer with no layers below it is in nothing. c175_in_group_fails: so the property fails for each group that has such a layer. c175_in_is, c175_flat_never_in and c175_only_params: what is asked instead. How Beautiful Soup treats a callable criterion is taken from its documentation."
  },
  {
   "property": "C176",
   "status": "partial",
   "theorems": [
    "Sang.Dom.c176_loop",
    "Sang.Dom.c176_all_moved",
    "Sang.Dom.c176_reversed",
    "Sang.Dom.c176_own_group_fails"
   ],
   "note": "The first two parts are proved (c176_loop, c176_all_moved). The last two are violated: the layers of one group end up in the opposite order (c176_reversed), and in place there is a ValueError at the first layer and nothing is moved (c176_own_group_fails)."
  },
  {
   "property": "C177",
   "status": "partial",
   "theorems": [
    "Sang.Dom.c177_moved_partial",
    "Sang.c177_deep_stays"
   ],
   "note": "The loop isn't disturbed by what is moved, but it goes down two levels only, as C49 says: c177_moved_partial has the layers of the group and their own, in order, and says that all other groups, and so those further down, keep their layers. c177_deep_stays: a layer that stays in its group."
  },
  {
   "property": "C178",
   "status": "proved",
   "theorems": [
    "Sang.Dom.c178_in_group",
    "Sang.Dom.c178_in_animation",
    "Sang.Dom.c178_below",
    "Sang.Dom.c178_others"
   ],
   "note": "The four parts of the statement. For any append or insert that ends without an exception; the ones that raise are C71 and C169."
  },
  {
   "property": "C179",
   "status": "proved",
   "theorems": [
    "Sang.Dom.c179_insert_at",
    "Sang.Dom.c179_insert_from_end",
    "Sang.Dom.c179_enumerated",
    "Sang.Dom.c179_no_such_place"
   ],
   "note": "The four parts of the statement. In c179_enumerated the number that enumerate gives is the layer's place in the list of children; the layers are distinct, so this is the same."
  },
  {
   "property": "C18",
   "status": "partial",
   "theorems": [
    "Sang.c18_unknown_extension_partial",
    "Sang.c18_refused_save_moves_target",
    "Sang.c18_sfg_breaks_later_save",
    "Sang.c18_render_error_destroys_target"
   ],
   "note": "violated by the code for every refused save with a known extension"
  },
  {
   "property": "C180",
   "status": "partial",
   "theorems": [
    "Sang.Dom.c180_children",
    "Sang.Dom.c180_found",
    "Sang.Dom.c180_descendants_partial",
    "Sang.c180_deep_unchanged",
    "Sang.Dom.c180_refused",
    "Sang.Dom.c180_found_refused",
    "Sang.Dom.c180_all_or_none",
    "Sang.Dom.c180_read_active",
    "Sang.Dom.c180_read_desc"
   ],
   "note": "Proved for children and for what find_all finds. Violated for descendants, which has two levels only (C49): c180_descendants_partial says what is assigned to, and c180_deep_unchanged has a layer that isn't."
  },
  {
   "property": "C181",
   "status": "partial",
   "theorems": [
    "Sang.Dom.c181_each",
    "Sang.Dom.c181_children_partial",
    "Sang.Dom.c181_found_partial",
    "Sang.Dom.c181_stops",
    "Sang.Dom.c181_children_stops",
    "Sang.Dom.c181_class",
    "Sang.Dom.c181_children_own_partial",
    "Sang.Dom.c181_found_nested_partial",
    "Sang.Dom.c181_search_partial",
    "Sang.c181_reaches_inside"
   ],
   "note": "Proved for the values the layers of the loop show, for what is outside parameters of that name in them, and for all that is outside them. Violated in that a group without the parameter reaches into the layers in it (C54): c181_reaches_inside. So c181_found_partial is for what is found when none of it is in another, and c181_children_own_partial and c181_found_nested_partial, which has layers in one another, are for layers with a parameter of their own that comes first."
  },
  {
   "property": "C182",
   "status": "proved",
   "theorems": [
    "Sang.Dom.c182_finds",
    "Sang.Dom.c182_some",
    "Sang.Dom.c182_loop",
    "Sang.Dom.c182_raises",
    "Sang.Dom.c182_moved",
    "Sang.Dom.c182_moved_again",
    "Sang.Dom.c182_assigned",
    "Sang.Dom.c182_renamed",
    "Sang.Dom.c182_switched",
    "Sang.Dom.c182_excluded"
   ],
   "note": "For layers whose types are known; with others below find_all may raise, and c182_finds says that it does so alike. Assigning to parameters of what is found is in C181."
  },
  {
   "property": "C183",
   "status": "partial",
   "theorems": [
    "Sang.Dom.c183_first",
    "Sang.Dom.c183_raises",
    "Sang.Dom.c183_renamed",
    "Sang.Dom.c183_switched",
    "Sang.Dom.c183_moved",
    "Sang.Dom.c183_forever",
    "Sang.Dom.c183_true_partial",
    "Sang.Dom.c183_stops_at_leaf"
   ],
   "note": "Proved for the loops that compare with None. Violated for \"while x := z.find(...)\": it ends at the first layer that has no layers below it, since that counts as false (C99): c183_stops_at_leaf. c183_true_partial is for what has layers below it."
  },
  {
   "property": "C19",
   "status": "proved",
   "theorems": [
    "Sang.c19_real_roundtrip",
    "Sang.c19_real_stable",
    "Sang.c19_signed_agrees",
    "Sang.c19_signed_stable"
   ],
   "note": "c19_signed_stable has the text for all finite numbers, also those that are written as a negative zero, in a model with signs that agrees with the other (c19_signed_agrees)"
  },
  {
   "property": "C20",
   "status": "proved",
   "theorems": [
    "Sang.c20_integer_roundtrip",
    "Sang.c20_bool_roundtrip"
   ],
   "note": ""
  },
  {
   "property": "C21",
   "status": "proved",
   "theorems": [
    "Sang.c21_angle_roundtrip"
   ],
   "note": ""
  },
  {
   "property": "C22",
   "status": "proved",
   "theorems": [
    "Sang.c22_time_roundtrip_detached",
    "Sang.c22_time_roundtrip_attached",
    "Sang.c22_seconds_refused",
    "Sang.c22_negative_refused",
    "Sang.c22_million_unreadable"
   ],
   "note": ""
  },
  {
   "property": "C23",
   "status": "proved",
   "theorems": [
    "Sang.c23_hex_roundtrip"
   ],
   "note": ""
  },
  {
   "property": "C24",
   "status": "proved",
   "theorems": [
    "Sang.c24_tuple_roundtrip",
    "Sang.c24_alpha_default",
    "Sang.c24_tuple_stable",
    "Sang.c24_signed_agrees",
    "Sang.c24_signed_stable"
   ],
   "note": "as for C19, c24_signed_stable is about numbers of any sign"
  },
  {
   "property": "C25",
   "status": "proved",
   "theorems": [
    "Sang.c25_equivalence",
    "Sang.c25_equal_iff_hex",
    "Sang.c25_equal_iff_levels",
    "Sang.c25_overbright_collide"
   ],
   "note": ""
  },
  {
   "property": "C26",
   "status": "proved",
   "theorems": [
    "Sang.c26_vector_tuple"
   ],
   "note": ""
  },
  {
   "property": "C27",
   "status": "partial",
   "theorems": [
    "Sang.c27_coordinate_partial",
    "Sang.c27_old_coordinate_stays"
   ],
   "note": "violated by the code whenever the vector already had that coordinate (c27_old_coordinate_stays, for every such vector)"
  },
  {
   "property": "C28",
   "status": "proved",
   "theorems": [
    "Sang.c28_unknown_key_refused",
    "Sang.c28_transformation_roundtrip"
   ],
   "note": "values given as float tuples and floats; vectors to ten decimals"
  },
  {
   "property": "C29",
   "status": "partial",
   "theorems": [
    "Sang.c29_shortcut_erases_others"
   ],
   "note": "violated for every group: setting one shortcut erases the other three"
  },
  {
   "property": "C30",
   "status": "proved",
   "theorems": [
    "Sang.c30_gradient_roundtrip",
    "Sang.c30_few_stops_refused"
   ],
   "note": ""
  },
  {
   "property": "C31",
   "status": "partial",
   "theorems": [
    "Sang.c31_string_roundtrip",
    "Sang.c31_string_survives_saving_iff",
    "Sang.c31_string_survives_saving_partial",
    "Sang.c31_empty_string_lost"
   ],
   "note": "the in-memory half is proved; saving is characterised exactly, and fails for empty and blank text and carriage returns"
  },
  {
   "property": "C32",
   "status": "proved",
   "theorems": [
    "Sang.c32_timeline_is_a_map"
   ],
   "note": "histories of subscript assignments and deletions; Denotes, Puts and Means say which times and values are meant"
  },
  {
   "property": "C33",
   "status": "proved",
   "theorems": [
    "Sang.c33_sorted",
    "Sang.c37_add_union",
    "Sang.c38_add_overwrite",
    "Sang.c42_assign_list",
    "Sang.c42_assign_timeline"
   ],
   "note": "after every successful change"
  },
  {
   "property": "C34",
   "status": "partial",
   "theorems": [
    "Sang.c34_read_back_partial",
    "Sang.c34_set_then_read_partial",
    "Sang.c34_text_never_found",
    "Sang.c76_text_blocks_reading",
    "Sang.c76_reading_fails"
   ],
   "note": "proved where the text x_y occurs nowhere in the value; violated otherwise, since reading a subscript then always raises ValueError (c76_text_blocks_reading)"
  },
  {
   "property": "C35",
   "status": "proved",
   "theorems": [
    "Sang.c35_delete_last"
   ],
   "note": ""
  },
  {
   "property": "C36",
   "status": "proved",
   "theorems": [
    "Sang.c36_delete_absent",
    "Sang.c36_delete_other"
   ],
   "note": ""
  },
  {
   "property": "C37",
   "status": "proved",
   "theorems": [
    "Sang.c37_add_clash",
    "Sang.c37_add_union"
   ],
   "note": ""
  },
  {
   "property": "C38",
   "status": "proved",
   "theorems": [
    "Sang.c38_add_overwrite",
    "Sang.c38_overwrite_twice_refused"
   ],
   "note": ""
  },
  {
   "property": "C39",
   "status": "partial",
   "theorems": [
    "Sang.c39_no_op",
    "Sang.c39_integer",
    "Sang.c39_bool",
    "Sang.c39_angle",
    "Sang.c39_string",
    "Sang.c39_real_partial",
    "Sang.c39_fine_real_lost",
    "Sang.c39_time",
    "Sang.c39_color",
    "Sang.c39_bright_color_lost",
    "Sang.c39_two_bright_wrong",
    "Sang.c39_vector"
   ],
   "note": "proved for every integer, boolean, angle, string and vector, colours with components between 0 and 1, times at whole frames up to 999999, and reals as the library stores them; violated for reals with more than ten decimals (c39_fine_real_lost) and for colours with components above 1 (c39_bright_color_lost, c39_two_bright_wrong)"
  },
  {
   "property": "C40",
   "status": "proved",
   "theorems": [
    "Sang.c40_constructor",
    "Sang.c40_constructor_decides",
    "Sang.c40_setters",
    "Sang.c40_always_legal",
    "Sang.c40_read_legal"
   ],
   "note": ""
  },
  {
   "property": "C41",
   "status": "partial",
   "theorems": [
    "Sang.c41_constructor",
    "Sang.c41_read",
    "Sang.c41_read_refuses",
    "Sang.c41_assigning_animated_refused",
    "Sang.c41_wrong_type_breaks_timeline",
    "Sang.c159_own_value_is_lost"
   ],
   "note": "what exists or is read never nests and has the right type; violated when a waypoint of another type is assigned to a subscript (c41_wrong_type_breaks_timeline, for every timeline), and when a value is assigned to a time of its own timeline, which puts an animated value in a waypoint (c159_own_value_is_lost)"
  },
  {
   "property": "C42",
   "status": "proved",
   "theorems": [
    "Sang.c42_assign_timeline",
    "Sang.c42_assign_list",
    "Sang.c42_assign_empty",
    "Sang.c144_set"
   ],
   "note": "that r is unchanged, in memory, is c144_set: everything that doesn't contain s is as it was"
  },
  {
   "property": "C43",
   "status": "proved",
   "theorems": [
    "Sang.c43_waypoints_survive_saving",
    "Sang.c43_times_survive_saving"
   ],
   "note": ""
  },
  {
   "property": "C44",
   "status": "proved",
   "theorems": [
    "Sang.c44_children",
    "Sang.c44_no_canvas_param"
   ],
   "note": ""
  },
  {
   "property": "C45",
   "status": "proved",
   "theorems": [
    "Sang.c45_append_puts_last",
    "Sang.c45_append_other_refused",
    "Sang.c45_append_to_plain_layer",
    "Sang.c45_in_memory"
   ],
   "note": "for a layer that is not already in a document; see C71 for one that is"
  },
  {
   "property": "C46",
   "status": "proved",
   "theorems": [
    "Sang.c46_insert",
    "Sang.c46_insert_outside",
    "Sang.c46_insert_other_refused",
    "Sang.c46_in_memory"
   ],
   "note": "for a layer that is not already in a document"
  },
  {
   "property": "C47",
   "status": "proved",
   "theorems": [
    "Sang.c47_index"
   ],
   "note": ""
  },
  {
   "property": "C48",
   "status": "proved",
   "theorems": [
    "Sang.c48_len",
    "Sang.c48_len_children_iff"
   ],
   "note": ""
  },
  {
   "property": "C49",
   "status": "partial",
   "theorems": [
    "Sang.c49_descendants_partial",
    "Sang.c49_descendants_are_two_levels",
    "Sang.c49_descendants_fails"
   ],
   "note": "violated below the second level; what is yielded is characterised exactly"
  },
  {
   "property": "C50",
   "status": "proved",
   "theorems": [
    "Sang.c50_find_all_true",
    "Sang.c50_find_all_false",
    "Sang.c50_find_is_head",
    "Sang.c50_find_all_function"
   ],
   "note": ""
  },
  {
   "property": "C51",
   "status": "partial",
   "theorems": [
    "Sang.c51_find_all_type_partial",
    "Sang.c51_find_all_type_plain_partial",
    "Sang.c51_underscore_types_never_found",
    "Sang.c51_hidden_types_never_found",
    "Sang.c51_classes_hiding_type",
    "Sang.c51_find_all_type_fails"
   ],
   "note": "violated for types written with underscores and for six classes"
  },
  {
   "property": "C52",
   "status": "proved",
   "theorems": [
    "Sang.c52_criteria_are_alternatives",
    "Sang.c145_active",
    "Sang.c145_excluded",
    "Sang.c145_described",
    "Sang.c145_undescribed",
    "Sang.c145_version",
    "Sang.c136_found_iff",
    "Sang.c147_together_finds_either",
    "Sang.c147_attrs_are_criteria"
   ],
   "note": "what a single criterion comes to is c145_* for the attributes every layer has, c136_found_iff for the others, and C51 for types"
  },
  {
   "property": "C53",
   "status": "proved",
   "theorems": [
    "Sang.c53_items_are_own_params"
   ],
   "note": ""
  },
  {
   "property": "C54",
   "status": "partial",
   "theorems": [
    "Sang.c54_subscript_reads_own_partial",
    "Sang.c54_subscript_writes_own_partial",
    "Sang.c54_subscript_refuses",
    "Sang.c54_wrong_class_refused",
    "Sang.c54_value_object_partial",
    "Sang.c54_field_reads_own_partial",
    "Sang.c54_field_wrong_class_partial",
    "Sang.c54_field_writes_own_partial",
    "Sang.c54_missing",
    "Sang.c54_subscripts_fail",
    "Sang.c54_contains",
    "Sang.c54_contains_fails",
    "Sang.c54_reads_in_memory",
    "Sang.c54_writes_in_memory",
    "Sang.c54_object_in_memory"
   ],
   "note": "violated when a nested layer's param of the same name comes first"
  },
  {
   "property": "C55",
   "status": "partial",
   "theorems": [
    "Sang.c55_new_layer_defaults_partial",
    "Sang.c55_halftone3_cannot_be_made",
    "Sang.c55_blend_method_unreadable",
    "Sang.c55_blend_method_fails",
    "Sang.c55_blend_method_stored",
    "Sang.c55_zero_times_unreadable",
    "Sang.c55_one_second_times",
    "Sang.c55_time_fields"
   ],
   "note": "violated for blend methods and zero times, and Halftone3 cannot be made"
  },
  {
   "property": "C56",
   "status": "proved",
   "theorems": [
    "Sang.c56_class_of_new_layer",
    "Sang.c56_class_of_type"
   ],
   "note": ""
  },
  {
   "property": "C57",
   "status": "proved",
   "theorems": [
    "Sang.c57_active",
    "Sang.c57_exclude_from_rendering",
    "Sang.c57_version",
    "Sang.c57_desc_string",
    "Sang.c57_desc_none"
   ],
   "note": ""
  },
  {
   "property": "C58",
   "status": "proved",
   "theorems": [
    "Sang.c58_not_implemented",
    "Sang.c58_type_is_fixed"
   ],
   "note": ""
  },
  {
   "property": "C59",
   "status": "proved",
   "theorems": [
    "Sang.c59_parent_and_depth",
    "Sang.c59_child"
   ],
   "note": ""
  },
  {
   "property": "C60",
   "status": "partial",
   "theorems": [
    "Sang.c60_begin_time_partial",
    "Sang.c60_end_time_ignores_header",
    "Sang.c60_end_time_fails"
   ],
   "note": "begin_time holds; end_time is violated for every file that isn't five seconds long"
  },
  {
   "property": "C61",
   "status": "proved",
   "theorems": [
    "Sang.c61_keyframes_in_order",
    "Sang.c61_keyframe_contents",
    "Sang.c61_keyframe_text",
    "Sang.c61_missing_attributes"
   ],
   "note": ""
  },
  {
   "property": "C62",
   "status": "partial",
   "theorems": [
    "Sang.c62_idempotent_partial",
    "Sang.c62_class_in_block_fails",
    "Sang.c62_nested_fails"
   ],
   "note": "violated if a replaced block has a line naming a class in it or a block starts inside another"
  },
  {
   "property": "C63",
   "status": "partial",
   "theorems": [
    "Sang.c63_only_named_blocks_change",
    "Sang.c63_outcome_exists",
    "Sang.c63_refused_iff",
    "Sang.c63_nested_start_accepted"
   ],
   "note": "blocks that start inside another are not refused"
  },
  {
   "property": "C64",
   "status": "proved",
   "theorems": [
    "Sang.c64_crash_safe",
    "Sang.c64_final"
   ],
   "note": ""
  },
  {
   "property": "C65",
   "status": "partial",
   "theorems": [
    "Sang.c65_words_partial",
    "Sang.c65_letters_partial",
    "Sang.c65_growing",
    "Sang.c65_last_partial",
    "Sang.c65_leading_blank_fails",
    "Sang.c65_trailing_blanks_fails"
   ],
   "note": "violated for descriptions that begin with a blank, and letter by letter for two blanks in a row; prefixes and growth hold always"
  },
  {
   "property": "C66",
   "status": "partial",
   "theorems": [
    "Sang.c66_first",
    "Sang.c66_monotone",
    "Sang.c66_before_end_partial",
    "Sang.c66_end_fails"
   ],
   "note": "the last time can be the end itself for extremely short subtitles, because of rounding"
  },
  {
   "property": "C67",
   "status": "partial",
   "theorems": [
    "Sang.c67_share_of_whole_texts_partial",
    "Sang.c67_word_length_fails"
   ],
   "note": "violated; the actual share is proved up to rounding"
  },
  {
   "property": "C68",
   "status": "partial",
   "theorems": [
    "Sang.c68_matches_iff",
    "Sang.c68_matches_crash_iff",
    "Sang.c68_unmatched_reported_partial",
    "Sang.c68_crash_iff",
    "Sang.c68_report_fails"
   ],
   "note": "a subtitle with nothing in it crashes the program if a group has no text; reporting holds otherwise"
  },
  {
   "property": "C69",
   "status": "partial",
   "theorems": [
    "Sang.c69_last_word_wins",
    "Sang.c69_all_scheduled_partial",
    "Sang.c69_same_time_fails",
    "Sang.c69_two_speakers_fails"
   ],
   "note": "violated when two words have the same time"
  },
  {
   "property": "C70",
   "status": "proved",
   "theorems": [
    "Sang.c70_documents_stay_trees"
   ],
   "note": "in memory, for every sequence of operations that doesn't put something inside itself; for those that do see C95"
  },
  {
   "property": "C71",
   "status": "partial",
   "theorems": [
    "Sang.c71_append_moves_partial",
    "Sang.c71_append_last_child_fails"
   ],
   "note": "violated when the layer is already the last child: ValueError"
  },
  {
   "property": "C72",
   "status": "partial",
   "theorems": [
    "Sang.c72_new_value_partial",
    "Sang.c72_source_loses_its_value"
   ],
   "note": "violated: the source loses its value; holds for value objects that are not in a layer"
  },
  {
   "property": "C73",
   "status": "partial",
   "theorems": [
    "Sang.c73_bool",
    "Sang.c73_string",
    "Sang.c73_color",
    "Sang.c73_gradient",
    "Sang.c73_vector",
    "Sang.c73_numeric_objects_refused"
   ],
   "note": "violated by the code for Real, Integer and Angle"
  },
  {
   "property": "C74",
   "status": "partial",
   "theorems": [
    "Sang.c74_real_eq_refl_symm",
    "Sang.c74_real_eq_means",
    "Sang.c74_real_eq_not_transitive"
   ],
   "note": "transitivity is refuted"
  },
  {
   "property": "C75",
   "status": "partial",
   "theorems": [
    "Sang.c75_assigning_transformation_destroys"
   ],
   "note": "violated by the code for every readable transformation; the theorem is the refutation"
  },
  {
   "property": "C76",
   "status": "partial",
   "theorems": [
    "Sang.c76_xy_blocks_reading",
    "Sang.c76_text_blocks_reading",
    "Sang.c76_reading_fails",
    "Sang.c34_read_back_partial"
   ],
   "note": "violated whenever x_y occurs in the element; otherwise c34_read_back_partial"
  },
  {
   "property": "C77",
   "status": "partial",
   "theorems": [
    "Sang.c77_negative_time_moves",
    "Sang.c77_stays_put_fails",
    "Sang.c34_set_then_read_partial"
   ],
   "note": "violated for every time before the start; otherwise c34_set_then_read_partial"
  },
  {
   "property": "C78",
   "status": "partial",
   "theorems": [
    "Sang.c78_iadd_raises",
    "Sang.c38_add_overwrite"
   ],
   "note": "violated: always raises, although the waypoints are added"
  },
  {
   "property": "C79",
   "status": "partial",
   "theorems": [
    "Sang.c79_animating_transformation_destroys"
   ],
   "note": "violated for every readable transformation; the theorem is the refutation"
  },
  {
   "property": "C80",
   "status": "partial",
   "theorems": [
    "Sang.c80_add_nothing_loses_value"
   ],
   "note": "violated for every value that can be animated; the theorem is the refutation"
  },
  {
   "property": "C81",
   "status": "partial",
   "theorems": [
    "Sang.c81_equality_is_of_times",
    "Sang.c81_equality_fails"
   ],
   "note": "violated; equality is characterised exactly"
  },
  {
   "property": "C82",
   "status": "partial",
   "theorems": [
    "Sang.c82_foreign_time_moves_on_saving",
    "Sang.c82_foreign_time_stays_iff",
    "Sang.c113_foreign_time_destroys"
   ],
   "note": "violated; where the waypoint ends up is proved exactly"
  },
  {
   "property": "C83",
   "status": "partial",
   "theorems": [
    "Sang.c83_unaffected_partial",
    "Sang.c83_at_first",
    "Sang.c83_type_fails",
    "Sang.c83_version_fails"
   ],
   "note": "violated for elements without a type or version"
  },
  {
   "property": "C84",
   "status": "partial",
   "theorems": [
    "Sang.c84_animation_partial",
    "Sang.c84_find_all_direct",
    "Sang.c84_find_all_direct_fails"
   ],
   "note": "violated for every group"
  },
  {
   "property": "C85",
   "status": "partial",
   "theorems": [
    "Sang.c85_header_fields_partial",
    "Sang.c85_defaults",
    "Sang.c85_header_fields_fail",
    "Sang.c85_gamma_wrong"
   ],
   "note": "violated for gamma_r, gamma_g, gamma_b and view_box"
  },
  {
   "property": "C86",
   "status": "proved",
   "theorems": [
    "Sang.c86_any_element_as_ref",
    "Sang.c86_no_canvas_no_root",
    "Sang.c86_loose_tag"
   ],
   "note": ""
  },
  {
   "property": "C87",
   "status": "proved",
   "theorems": [
    "Sang.c87_header_roundtrip",
    "Sang.c87_refused",
    "Sang.c87_fps_takes_effect"
   ],
   "note": ""
  },
  {
   "property": "C88",
   "status": "proved",
   "theorems": [
    "Sang.c88_size",
    "Sang.c88_size_follows_fields",
    "Sang.c88_viewbox",
    "Sang.c88_background"
   ],
   "note": ""
  },
  {
   "property": "C89",
   "status": "partial",
   "theorems": [
    "Sang.c89_framecount",
    "Sang.c89_framecount_not_difference",
    "Sang.c89_end_time_has_no_effect"
   ],
   "note": "the count holds for whole times; setting end_time has no effect"
  },
  {
   "property": "C90",
   "status": "partial",
   "theorems": [
    "Sang.c90_name",
    "Sang.c90_desc_partial",
    "Sang.c90_desc_fails"
   ],
   "note": "violated for documents without a desc tag"
  },
  {
   "property": "C91",
   "status": "proved",
   "theorems": [
    "Sang.c91_all_files",
    "Sang.c91_unseen"
   ],
   "note": ""
  },
  {
   "property": "C92",
   "status": "partial",
   "theorems": [
    "Sang.c92_line_break_never_matches",
    "Sang.c92_one_line_partial"
   ],
   "note": "violated"
  },
  {
   "property": "C93",
   "status": "partial",
   "theorems": [
    "Sang.c93_adjust_partial",
    "Sang.c93_times_are_floats",
    "Sang.c93_tiny_time_fails",
    "Sang.c93_tiny_time_occurs"
   ],
   "note": "violated for times between 0 and a tenth of a millisecond"
  },
  {
   "property": "C94",
   "status": "proved",
   "theorems": [
    "Sang.c94_groups",
    "Sang.c94_texts",
    "Sang.c94_first_by_description"
   ],
   "note": ""
  },
  {
   "property": "C95",
   "status": "partial",
   "theorems": [
    "Sang.c95_animation_into_itself_partial",
    "Sang.c95_append_makes_cycle",
    "Sang.c95_insert_makes_cycle"
   ],
   "note": "violated for groups whenever it is tried, by append and by insert; an animation appended to itself is refused"
  },
  {
   "property": "C96",
   "status": "partial",
   "theorems": [
    "Sang.c96_insert_moves_partial",
    "Sang.c96_insert_at_itself_fails"
   ],
   "note": "violated when the layer is the child at that index itself"
  },
  {
   "property": "C97",
   "status": "partial",
   "theorems": [
    "Sang.c97_setting_is_shared_partial",
    "Sang.c97_unanimating_leaves_others_behind"
   ],
   "note": "violated by un-animating"
  },
  {
   "property": "C98",
   "status": "partial",
   "theorems": [
    "Sang.c98_bool_truth_partial",
    "Sang.c98_static_is_false",
    "Sang.c98_true_iff_waypoints",
    "Sang.c98_parts"
   ],
   "note": "violated for numbers, times, texts and colours, which are false unless animated; vectors, gradients and transformations are true if they have parts"
  },
  {
   "property": "C99",
   "status": "partial",
   "theorems": [
    "Sang.c99_leaf_layer_is_false"
   ],
   "note": "violated: a layer is true exactly if it has layers below it"
  }
 ]
}