# property -> (status, theorem names, note)
CLAIMS = {
"C01": ("proved", "C01_literal_expands C01_dont_care_bits C52_exact", "C52_exact: the whole container, both directions, for every text."),
"C02": ("proved", "C02_default_fills_holes C52_exact", "The default entry must not itself have been dropped as a reserved or duplicate name."),
"C03": ("proved", "C03_values_in_range_sorted C52_exact", ""),
"C04": ("partial", "C04_names_unique_partial C04_exact C04_names_can_clash", "False of the code: C04_names_can_clash is a device whose processed container has two values of one name (default-generated name equals an explicit one). The partial theorem proves uniqueness when no entry continues the name of a default; C04_exact characterises exactly the containers with two values of one name."),
"C05": ("partial", "C05_literal_value C05_malformed_rejected_partial C05_accepted_wellformed_partial C05_odd_literals_accepted C05_exact", "Meaning of the well-formed literals is proved for every non-negative integer. The rejection half is false of the code (Python's int() accepts underscores, signs and blanks): C05_odd_literals_accepted. C05_exact: which texts are read, and as which integers, for every text; all others raise ProcessException."),
"C06": ("proved", "C06_read_and_write_view", ""),
"C11": ("proved", "C11_anywhere C11_anywhere_sample C11_position C11_notations_agree C11_reversed_range C11_attributes C11_device_position", ""),
"C12": ("proved", "C12_no_overlap C12_rejected_only_for_conflict", "Readable = any access but write-only, writable = any but read-only; write-once counts as both."),
"C13": ("proved", "C13_sorted_unique C13_complete", ""),
"C15": ("proved", "C15_peripheral C15_cluster C15_register C15_field", ""),
"C16": ("proved", "C16_peripheral C16_cluster C16_register C16_field", ""),
"C17": ("proved", "C17_peripheral C17_cluster C17_register C17_field", ""),
"C21": ("proved", "C21_absolute_address", ""),
"C22": ("proved", "C22_registers_flatten C22_registers_sorted", ""),
"C23": ("proved", "C23_peripherals_sorted C23_children_sorted C23_blocks_interrupts_sorted", ""),
"C24": ("proved", "C24_peripheral_names C24_child_names", ""),
"C25": ("proved", "C25_cluster_extent C25_peripheral_extent", ""),
"C27": ("proved", "C27_supported_sizes", ""),
"C53": ("partial", "C53_resolved C53_processed C53_exact C53_followed C53_followed_resolved C53_sample C53_followed_sample C53_full C53_full_resolved C53_full_sample C53_stray C53_endless C46_enum_values_lost", "C53_exact proves it in full for descriptions in which no cluster is derived, C53_followed for those whose references can be followed (C46) and whose bases below the level of peripherals contain no derived element, with any derived clusters; C53_full adds the order and the sizes of peripherals and clusters (DeviceFull), if no reference can be read in two ways. In general the property is false of the code for clusters derived from clusters (C53_resolved states the two exceptions): a cluster may contain in addition a cluster derived from it or nested in its base, and a cluster that would contain itself is cut off; C53_stray and C53_endless show that both occur. A container of enumerated values whose base is itself derived may take over the base as declared instead of completed (Takes.unfinished; C46_enum_values_lost)."),
"C52": ("proved", "C52_no_reserved C52_first_wins C52_two_defaults C52_exact C52_accepted", "C52_exact: the values of every processed container are exactly (iff, ascending) those that the declared entries stand for (Spec/Container.lean), a function of the declaration. C52_accepted: which containers are accepted, iff."),
"C14": ("proved", "C14_exceeding_reported C14_device_reported C14_device_only C14_dropped_peripheral_witness", "Per register the equivalence is exact. At device level the warning may concern a register of a peripheral that is itself dropped (with its own warning) for its size: C14_dropped_peripheral_witness."),
"C18": ("proved", "C18_never_missing C18_size_present", "The ValueError of the property validator and the 'size is None' ProcessException are unreachable. (A ValueError can arise before, while dimIndex strings are read: see C48.)"),
"C26": ("proved", "C26_ignored_are_reported C26_nothing_lost", ""),
"C28": ("proved", "C28_overlap_reported C28_no_alternates C28_only_overlaps C28_share_byte", "The converse excepts scopes of peripherals that were dropped (with a warning) for their size."),
"C29": ("proved", "C29_effective_reported C29_specified_reported C29_only_overlaps", ""),
"C30": ("proved", "C30_component", ""),
"C31": ("partial", "C31_key_error C31_exact C31_blamed C31_dangling_peripheral_partial C31_dangling_cluster_partial C31_dangling_register_accepted", "False of the code: KeyError instead of ProcessException (C31_key_error). C31_exact: KeyError is raised only for a dangling alternate (never by the resolver), C31_blamed finds the declaration that names it. Proved: a dangling alternatePeripheral/alternateCluster is never accepted; a dangling alternateRegister is (C31_dangling_register_accepted)."),
"C32": ("proved", "C32_map", ""),
"C33": ("partial", "C33_start C33_end_partial C33_end_exact C33_nested_blocks", "The start is proved. The end is false of the code when blocks overlap (the last block in sorted order need not end last): C33_nested_blocks. The partial theorem proves it for blocks that do not overlap; C33_end_exact says for every list of blocks where the range ends, and when this is the end address."),
"C48": ("partial", "C48_exceptions_partial C48_undocumented", "False of the code: seven ResolveException lines, ValueError, TypeError, AttributeError and KeyError escape on malformed (and some correct) descriptions; C48_undocumented has a description for each. The partial theorem shows, for every description, that nothing else escapes: the internal errors of the dependency graph and all other ResolveExceptions never occur."),
"C49": ("proved", "C49_cpu C49_device", ""),
"C50": ("proved", "C50_strict C50_fallback C50_other_error C50_all_fail", ""),
"C51": ("proved", "C51_shipped C51_newest C51_exists C51_latest", ""),
"C35": ("proved", "C35_again C35_sizes C35_clean C35_through_xml C35_sample C35_marker C35_ignored C35_clash C35_empty", "C35_again: for every processed device that meets the stated conditions, with any node order and any fuel of at least 2. C35_marker, C35_ignored, C35_clash, C35_empty show that each condition is needed."),
 "C36": ("proved", "C36_round_trip C36_injective xdev_ok C36_incomplete_position C36_blanks C36_empty_text C36_empty_name C36_no_peripherals", "Holds for every device satisfying the conditions named in the property; the Sample theorems show each condition is needed. The text layer of lxml is trusted (reread)."),
"C37": ("proved", "C37_binary_sample C37_written C37_every_text C37_refused C37_literals C37_raises C37_unambiguous C37_odd_literals", "C37_odd_literals: outside the stated condition '0x#1' is read as 177 and '1_0' as 10."),
"C38": ("proved", "C38_vocabulary C38_tokens C38_only_tokens C38_access C38_bool", ""),
"C39": ("proved", "C39_last_wins C39_sample C39_duplicates_reported C39_mandatory C39_absent C39_value C39_first_wins_for_groups C39_type_error", "For value elements that have a text. Finding: of repeated elements with children the first counts, silently; a repeated empty value element raises TypeError."),
"C40": ("proved", "C40_whitespace C40_sample C40_blank_only", "Text that becomes empty is excepted: a blank-only value is the empty string, an empty element None (C40_blank_only)."),
"C34": ("proved", "C34_self_contained C34_same_content C34_nothing_lost C34_injective", "Same* relations are in Spec/Convert.lean; 'nothing lost' = processed devices with equal conversions are equal."),
"C07": ("proved", "C07_device C07_elements C07_device_sample C07_sample", "C07_device: every declaration is replaced, wherever it occurs, by its elements, and there are no other elements (before elements are ignored with a warning, C26; names are unique by C24). Exception stated in the theorem: a cluster that would contain itself is cut off (C53_endless)."),
"C08": ("proved", "C08_denoted C08_wrong_count C08_length C08_descending C08_descending_letters C08_malformed_ranges C08_sample C08_exact", "Finding: strings of neither form ('1-2-3', 'A-BC') raise ValueError or TypeError: C08_malformed_ranges. C08_exact: the list of indices for every text, iff."),
"C09": ("proved", "C09_distinct C09_ranges C09_sample", ""),
"C10": ("proved", "C10_element C10_rejected C10_sample", ""),
"C41": ("proved", "C41_peripheral_named C41_refused C41_every_chain C41_every_enum C41_peripheral C41_cluster C41_register C41_field C41_unfounded C41_unfounded_register C41_unfounded_cluster C41_unfounded_field C41_dangling C41_sample C41_sample_set", "C41_peripheral_named/C41_refused: the property as stated. The other kinds: C41_every_chain (every declared element has a chain of references read as paths), C41_every_enum."),
"C42": ("proved", "C42_acyclic C42_refused C42_rounds", ""),
"C43": ("proved", "C43_all_processed C43_base_processed C43_sample", "The base of a derived enumerated-values container need not be processed (finding); for the four other kinds it is."),
"C44": ("partial", "C44_found C44_nothing C44_ambiguous C44_arbitrary_choice C44_sample", "False of the code for ungrouped registers of a peripheral: C44_arbitrary_choice is a device in which one of several candidates is chosen by set order. Proved: what is found is of the same kind and carries the path; ambiguity between elements in the other cases raises."),
"C19": ("proved", "C19_peripheral C19_cluster C19_sample C53_full_resolved", "For all devices, with derivedFrom and dim. C53_full_resolved gives the exact sizes for derived devices too (SizedBy). The exact rule for elements without size is part of C45."),
"C20": ("proved", "C20_device_size_ignored C20_sample", "Finding: contradicts the documented inheritance of the device's size."),
"C46": ("partial", "C46_followed_partial C46_ends_partial C46_followable_sample C46_forward C46_derived_in_base C46_sample C46_through_dim C46_order_matters C46_enum_values_lost", "C46_followed_partial/C46_ends_partial: if the references of a description are acyclic, name existing undimmed elements by the names they are declared with, and paths of several names lead to elements that can be completed early (Spec.Followable), processing ends and the resolver gives up on none of them (no loop, cycle, left-over or not-yet-processed base), for every declaration order, chain length and set iteration order; C56_derived: under the conditions of Spec.Resolvable the resolution succeeds. As stated the property is false of the code in four ways: a two-step chain through a dim element always fails (C46_through_dim), the declaration order can decide (C46_order_matters), a base with a derived element in it that is declared after the element derived from it makes processing fail with AttributeError (C46_derived_in_base), and a chain of enumerated-value containers can silently lose its values (C46_enum_values_lost)."),
"C45": ("proved", "C45_resolved C45_processed C45_sample", "Also with dim. `DeviceBuilt` (Spec/Build.lean) is a recursive relation over the description that does not mention the graph; it includes the exact size rule."),
"C47": ("partial", "C47_ends_partial C47_endless C47_no_derived_cluster_partial C47_ends_sample C47_only_main_loop C47_more_rounds C47_underived_partial C45_sample", "Proved: processing ends for every description in which no cluster lies, by way of containment and derivation, inside itself (in particular if no cluster is derived); everything but the resolver's main loop ends on every input. Missing: descriptions with a cluster inside itself, for which the property is false of the code: C47_endless gives a description whose processing ends after no number of rounds."),
"C54": ("proved", "C54_warnings C54_misaligned_reported C54_overlapping_blocks_reported C54_sample", "Spec/Validate.lean states the conditions on the resolved peripherals (what those are for a given description: C45, C53). The warnings about overlaps are C28 and C29."),
"C55": ("proved", "C55_refused_iff_defect C55_failure_explained C55_sample C55_size_zero", "Failures of the resolution itself: C10, C11, C41, C42, C48."),
"C57": ("proved", "C57_reads C57_unambiguous C57_written C57_refused C57_sample", "The specification (Spec/Says.lean) names the element of the format for each attribute, independently of the parser; the text layer of lxml is trusted (XElem, reread)."),
"C58": ("proved", "C58_warnings C58_silent C58_sample", "Which warnings, not how often or in which order. Spec/Remarks.lean: what each kind of element contains, and what is remarkable."),
"C56": ("proved", "C56_accepted C56_necessary C56_sample C56_derived C56_derived_sample C56_derived_accepted C56_exact C56_unbuildable C56_exact_sample", "C56_derived covers descriptions with derivedFrom that meet Spec.Resolvable: references followable (C46), bases below peripherals without derived elements in them, unambiguous names in paths, and the data conditions of C56_accepted on the declarations completed by their bases. C56_exact: for descriptions without derivedFrom and without negative sizes, resolved if and only if Spec.Buildable (all texts, including those outside the schema; enumerated values included). C56_necessary is the converse half in terms of the forms of the schema."),
"C59": ("proved", "C05_exact C08_exact C11_position C37_every_text C37_refused", "Grammars: Spec/EnumLit.lean (Reads), Spec/DimText.lean (DimReads), Spec/Dim.lean (BitsOf), Spec/Literal.lean (IntText)."),
"C60": ("partial", "C60_unshared_partial C60_underived_partial C60_sample C60_visible", "processDeviceH (Model/Heap.lean) is the pipeline with object identities; equal to processDevice, including warnings, exceptions and fuel, for every description without derivedFrom, and for those whose references are followable (C46), unambiguous, and lead, below the level of peripherals, to elements without derived elements in them. False in general: C60_visible."),
"C61": ("proved", "C61_sound C61_decl C61_entries C61_exact C61_underived C61_definite C61_sample C61_sample_derived", "Sets of warnings (not their order or number). C61_sound/C61_decl/C61_entries hold for every accepted description; where the name in a derivedFrom leaves open by which element a declaration is completed, the reason is found in one of the possible completions. C61_exact is an equivalence if there is only one completion, C61_underived without derivedFrom. The warnings of the validation phase are those of C54."),
"C64": ("proved", "C64_change C64_objects C64_map C64_sample C64_move_needed", "Equality of outcomes (exception, warnings, device) for every description, accepted or not, in the model without and with shared objects, and of the map. Change.Fair: the values the processing fills in by itself (0, 0xFFFFFFFF, any, modify) are left alone and the distance is a multiple of 4 (otherwise the warning about unaligned peripherals may differ: C64_move_needed)."),
"C63": ("proved", "C63_same_device C61_definite C53_full_resolved C63_sample", "For descriptions whose references can be followed (C46), without derived elements in bases below the level of peripherals, and Definite: no reference can be read in two ways, no dimIndex names an index twice, enumerated values are derived from ones that are not derived themselves (Spec/Definite.lean). For accepted runs; devices are equal, warnings equal as sets. For descriptions without derivedFrom see C62_iteration."),
"C62": ("proved", "C62_same C62_accepted C62_iteration reordered_symm C62_sample C62_exception_differs C62_derived C62_derived_sample", "C62_same, C62_accepted, C62_iteration: descriptions without derivedFrom; C62_derived: with derivedFrom, under the conditions of C63, if both are accepted. C62_accepted assumes sizes that are not negative (the schema demands it), C62_same does not. Warnings as sets. Which exception is raised does depend on the order if there are several defects (C62_exception_differs)."),
"C65": ("proved", "C65_kept C65_new C65_sample", "For accepted runs, under the conditions of C63 for the larger description (Followable, Quiet, Definite). Equality of whole peripherals (with registers, clusters, fields, enumerated values); warnings as sets."),
"C66": ("proved", "C66_same C66_accepted C66_sample", "For descriptions without derivedFrom. Writing out is a relation (Spec/Unroll.lean) that leaves the choice of the elements open. Not compared: the warnings bitRangeReversed and msbLtLsb, which name the field or its bitRange as written. Acceptance for sizes that are not negative and at least two rounds."),
"C67": ("proved", "C67_same C67_underived C67_exists C67_sample", "For accepted runs (of both descriptions), under the conditions of C63 (Followable, Quiet, Definite). Writing out is a relation (Spec/Inline.lean) that leaves the order of the contents open; the completed attributes are those of C20/C53 (Spec/Elements.lean). That the description written out is accepted whenever the original is is not claimed."),
"C68": ("proved", "C68_transparent C68_off C68_always C68_told C68_document C68_listed C68_drawn C68_last C68_refused C68_sample C68_refused_sample C68_refused_process_sample", "The text is compared with Spec/Log.lean (a document as a list of entries). What graphviz is told to draw is modelled (get_svg), the drawing itself, rewriting of the SVG, gzip/base64 and the two page templates are arbitrary functions (assumed not to fail). The file is the one left when the resolver is garbage collected (__del__); log_finalize is never called."),
"C69": ("proved", "C69_never_loops", "For every iteration order of descendants that is a permutation; no condition on the description. The main loop may still not end (C47), but never with LoopException."),
"C70": ("proved", "C70_rewritten C70_same C70_stable C70_processed C70_sample C70_survives C70_refused C70_moved", "Filled, whole and WholeField are in Spec/Rewrite.lean. C70_refused and C70_moved show what the loss of a half position does to a derived field."),
"C71": ("proved", "C71_written C71_converted C71_processed C71_enumerated_value C71_not_kept C71_kept_sample C71_reread C71_reread_sample C71_offset_only C71_text", "The content models of 1.3.11.xsd are transcribed in Spec/Schema.lean as relations; the types of values, attributes and key constraints of the schema are not part of this. Both directions are proved. C71_reread is about documents without contents in vendorExtensions. C71_not_kept is a finding: a valid description whose processed device is written as an invalid document."),
}
