{
 "claims": [
  {
   "property": "C01",
   "status": "proved",
   "theorems": [
    "Svd.C01_literal_expands",
    "Svd.C01_dont_care_bits",
    "Svd.C52_exact"
   ],
   "note": "C52_exact: the whole container, both directions, for every text."
  },
  {
   "property": "C02",
   "status": "proved",
   "theorems": [
    "Svd.C02_default_fills_holes",
    "Svd.C52_exact"
   ],
   "note": "The default entry must not itself have been dropped as a reserved or duplicate name."
  },
  {
   "property": "C03",
   "status": "proved",
   "theorems": [
    "Svd.C03_values_in_range_sorted",
    "Svd.C52_exact"
   ],
   "note": ""
  },
  {
   "property": "C04",
   "status": "partial",
   "theorems": [
    "Svd.C04_names_unique_partial",
    "Svd.C04_exact",
    "Svd.C04_names_can_clash"
   ],
   "note": "False of the code: C04_names_can_clash is a device whose processed container has two values of one name (default-generated name equals an explicit one). The partial theorem proves uniqueness when no entry continues the name of a default; C04_exact characterises exactly the containers with two values of one name."
  },
  {
   "property": "C05",
   "status": "partial",
   "theorems": [
    "Svd.C05_literal_value",
    "Svd.C05_malformed_rejected_partial",
    "Svd.C05_accepted_wellformed_partial",
    "Svd.C05_odd_literals_accepted",
    "Svd.C05_exact"
   ],
   "note": "Meaning of the well-formed literals is proved for every non-negative integer. The rejection half is false of the code (Python's int() accepts underscores, signs and blanks): C05_odd_literals_accepted. C05_exact: which texts are read, and as which integers, for every text; all others raise ProcessException."
  },
  {
   "property": "C06",
   "status": "proved",
   "theorems": [
    "Svd.C06_read_and_write_view"
   ],
   "note": ""
  },
  {
   "property": "C07",
   "status": "proved",
   "theorems": [
    "Svd.C07_device",
    "Svd.C07_elements",
    "Svd.C07_device_sample",
    "Svd.C07_sample"
   ],
   "note": "C07_device: every declaration is replaced, wherever it occurs, by its elements, and there are no other elements (before elements are ignored with a warning, C26; names are unique by C24). Exception stated in the theorem: a cluster that would contain itself is cut off (C53_endless)."
  },
  {
   "property": "C08",
   "status": "proved",
   "theorems": [
    "Svd.C08_denoted",
    "Svd.C08_wrong_count",
    "Svd.C08_length",
    "Svd.C08_descending",
    "Svd.C08_descending_letters",
    "Svd.C08_malformed_ranges",
    "Svd.C08_sample",
    "Svd.C08_exact"
   ],
   "note": "Finding: strings of neither form ('1-2-3', 'A-BC') raise ValueError or TypeError: C08_malformed_ranges. C08_exact: the list of indices for every text, iff."
  },
  {
   "property": "C09",
   "status": "proved",
   "theorems": [
    "Svd.C09_distinct",
    "Svd.C09_ranges",
    "Svd.C09_sample"
   ],
   "note": ""
  },
  {
   "property": "C10",
   "status": "proved",
   "theorems": [
    "Svd.C10_element",
    "Svd.C10_rejected",
    "Svd.C10_sample"
   ],
   "note": ""
  },
  {
   "property": "C11",
   "status": "proved",
   "theorems": [
    "Svd.C11_anywhere",
    "Svd.C11_anywhere_sample",
    "Svd.C11_position",
    "Svd.C11_notations_agree",
    "Svd.C11_reversed_range",
    "Svd.C11_attributes",
    "Svd.C11_device_position"
   ],
   "note": ""
  },
  {
   "property": "C12",
   "status": "proved",
   "theorems": [
    "Svd.C12_no_overlap",
    "Svd.C12_rejected_only_for_conflict"
   ],
   "note": "Readable = any access but write-only, writable = any but read-only; write-once counts as both."
  },
  {
   "property": "C13",
   "status": "proved",
   "theorems": [
    "Svd.C13_sorted_unique",
    "Svd.C13_complete"
   ],
   "note": ""
  },
  {
   "property": "C14",
   "status": "proved",
   "theorems": [
    "Svd.C14_exceeding_reported",
    "Svd.C14_device_reported",
    "Svd.C14_device_only",
    "Svd.C14_dropped_peripheral_witness"
   ],
   "note": "Per register the equivalence is exact. At device level the warning may concern a register of a peripheral that is itself dropped (with its own warning) for its size: C14_dropped_peripheral_witness."
  },
  {
   "property": "C15",
   "status": "proved",
   "theorems": [
    "Svd.C15_peripheral",
    "Svd.C15_cluster",
    "Svd.C15_register",
    "Svd.C15_field"
   ],
   "note": ""
  },
  {
   "property": "C16",
   "status": "proved",
   "theorems": [
    "Svd.C16_peripheral",
    "Svd.C16_cluster",
    "Svd.C16_register",
    "Svd.C16_field"
   ],
   "note": ""
  },
  {
   "property": "C17",
   "status": "proved",
   "theorems": [
    "Svd.C17_peripheral",
    "Svd.C17_cluster",
    "Svd.C17_register",
    "Svd.C17_field"
   ],
   "note": ""
  },
  {
   "property": "C18",
   "status": "proved",
   "theorems": [
    "Svd.C18_never_missing",
    "Svd.C18_size_present"
   ],
   "note": "The ValueError of the property validator and the 'size is None' ProcessException are unreachable. (A ValueError can arise before, while dimIndex strings are read: see C48.)"
  },
  {
   "property": "C19",
   "status": "proved",
   "theorems": [
    "Svd.C19_peripheral",
    "Svd.C19_cluster",
    "Svd.C19_sample",
    "Svd.C53_full_resolved"
   ],
   "note": "For all devices, with derivedFrom and dim. C53_full_resolved gives the exact sizes for derived devices too (SizedBy). The exact rule for elements without size is part of C45."
  },
  {
   "property": "C20",
   "status": "proved",
   "theorems": [
    "Svd.C20_device_size_ignored",
    "Svd.C20_sample"
   ],
   "note": "Finding: contradicts the documented inheritance of the device's size."
  },
  {
   "property": "C21",
   "status": "proved",
   "theorems": [
    "Svd.C21_absolute_address"
   ],
   "note": ""
  },
  {
   "property": "C22",
   "status": "proved",
   "theorems": [
    "Svd.C22_registers_flatten",
    "Svd.C22_registers_sorted"
   ],
   "note": ""
  },
  {
   "property": "C23",
   "status": "proved",
   "theorems": [
    "Svd.C23_peripherals_sorted",
    "Svd.C23_children_sorted",
    "Svd.C23_blocks_interrupts_sorted"
   ],
   "note": ""
  },
  {
   "property": "C24",
   "status": "proved",
   "theorems": [
    "Svd.C24_peripheral_names",
    "Svd.C24_child_names"
   ],
   "note": ""
  },
  {
   "property": "C25",
   "status": "proved",
   "theorems": [
    "Svd.C25_cluster_extent",
    "Svd.C25_peripheral_extent"
   ],
   "note": ""
  },
  {
   "property": "C26",
   "status": "proved",
   "theorems": [
    "Svd.C26_ignored_are_reported",
    "Svd.C26_nothing_lost"
   ],
   "note": ""
  },
  {
   "property": "C27",
   "status": "proved",
   "theorems": [
    "Svd.C27_supported_sizes"
   ],
   "note": ""
  },
  {
   "property": "C28",
   "status": "proved",
   "theorems": [
    "Svd.C28_overlap_reported",
    "Svd.C28_no_alternates",
    "Svd.C28_only_overlaps",
    "Svd.C28_share_byte"
   ],
   "note": "The converse excepts scopes of peripherals that were dropped (with a warning) for their size."
  },
  {
   "property": "C29",
   "status": "proved",
   "theorems": [
    "Svd.C29_effective_reported",
    "Svd.C29_specified_reported",
    "Svd.C29_only_overlaps"
   ],
   "note": ""
  },
  {
   "property": "C30",
   "status": "proved",
   "theorems": [
    "Svd.C30_component"
   ],
   "note": ""
  },
  {
   "property": "C31",
   "status": "partial",
   "theorems": [
    "Svd.C31_key_error",
    "Svd.C31_exact",
    "Svd.C31_blamed",
    "Svd.C31_dangling_peripheral_partial",
    "Svd.C31_dangling_cluster_partial",
    "Svd.C31_dangling_register_accepted"
   ],
   "note": "False of the code: KeyError instead of ProcessException (C31_key_error). C31_exact: KeyError is raised only for a dangling alternate (never by the resolver), C31_blamed finds the declaration that names it. Proved: a dangling alternatePeripheral/alternateCluster is never accepted; a dangling alternateRegister is (C31_dangling_register_accepted)."
  },
  {
   "property": "C32",
   "status": "proved",
   "theorems": [
    "Svd.C32_map"
   ],
   "note": ""
  },
  {
   "property": "C33",
   "status": "partial",
   "theorems": [
    "Svd.C33_start",
    "Svd.C33_end_partial",
    "Svd.C33_end_exact",
    "Svd.C33_nested_blocks"
   ],
   "note": "The start is proved. The end is false of the code when blocks overlap (the last block in sorted order need not end last): C33_nested_blocks. The partial theorem proves it for blocks that do not overlap; C33_end_exact says for every list of blocks where the range ends, and when this is the end address."
  },
  {
   "property": "C34",
   "status": "proved",
   "theorems": [
    "Svd.C34_self_contained",
    "Svd.C34_same_content",
    "Svd.C34_nothing_lost",
    "Svd.C34_injective"
   ],
   "note": "Same* relations are in Spec/Convert.lean; 'nothing lost' = processed devices with equal conversions are equal."
  },
  {
   "property": "C35",
   "status": "proved",
   "theorems": [
    "Svd.C35_again",
    "Svd.C35_sizes",
    "Svd.C35_clean",
    "Svd.C35_through_xml",
    "Svd.Sample.C35_sample",
    "Svd.Sample.C35_marker",
    "Svd.Sample.C35_ignored",
    "Svd.Sample.C35_clash",
    "Svd.Sample.C35_empty"
   ],
   "note": "C35_again: for every processed device that meets the stated conditions, with any node order and any fuel of at least 2. C35_marker, C35_ignored, C35_clash, C35_empty show that each condition is needed."
  },
  {
   "property": "C36",
   "status": "proved",
   "theorems": [
    "Svd.C36_round_trip",
    "Svd.C36_injective",
    "Svd.Sample.xdev_ok",
    "Svd.Sample.C36_incomplete_position",
    "Svd.Sample.C36_blanks",
    "Svd.Sample.C36_empty_text",
    "Svd.Sample.C36_empty_name",
    "Svd.Sample.C36_no_peripherals"
   ],
   "note": "Holds for every device satisfying the conditions named in the property; the Sample theorems show each condition is needed. The text layer of lxml is trusted (reread)."
  },
  {
   "property": "C37",
   "status": "proved",
   "theorems": [
    "Svd.C37_binary_sample",
    "Svd.C37_written",
    "Svd.C37_every_text",
    "Svd.C37_refused",
    "Svd.C37_literals",
    "Svd.C37_raises",
    "Svd.C37_unambiguous",
    "Svd.C37_odd_literals"
   ],
   "note": "C37_odd_literals: outside the stated condition '0x#1' is read as 177 and '1_0' as 10."
  },
  {
   "property": "C38",
   "status": "proved",
   "theorems": [
    "Svd.C38_vocabulary",
    "Svd.C38_tokens",
    "Svd.C38_only_tokens",
    "Svd.C38_access",
    "Svd.C38_bool"
   ],
   "note": ""
  },
  {
   "property": "C39",
   "status": "proved",
   "theorems": [
    "Svd.C39_last_wins",
    "Svd.Sample.C39_sample",
    "Svd.C39_duplicates_reported",
    "Svd.C39_mandatory",
    "Svd.C39_absent",
    "Svd.C39_value",
    "Svd.Sample.C39_first_wins_for_groups",
    "Svd.Sample.C39_type_error"
   ],
   "note": "For value elements that have a text. Finding: of repeated elements with children the first counts, silently; a repeated empty value element raises TypeError."
  },
  {
   "property": "C40",
   "status": "proved",
   "theorems": [
    "Svd.C40_whitespace",
    "Svd.C40_sample",
    "Svd.C40_blank_only"
   ],
   "note": "Text that becomes empty is excepted: a blank-only value is the empty string, an empty element None (C40_blank_only)."
  },
  {
   "property": "C41",
   "status": "proved",
   "theorems": [
    "Svd.C41_peripheral_named",
    "Svd.C41_refused",
    "Svd.C41_every_chain",
    "Svd.C41_every_enum",
    "Svd.C41_peripheral",
    "Svd.C41_cluster",
    "Svd.C41_register",
    "Svd.C41_field",
    "Svd.C41_unfounded",
    "Svd.C41_unfounded_register",
    "Svd.C41_unfounded_cluster",
    "Svd.C41_unfounded_field",
    "Svd.C41_dangling",
    "Svd.C41_sample",
    "Svd.C41_sample_set"
   ],
   "note": "C41_peripheral_named/C41_refused: the property as stated. The other kinds: C41_every_chain (every declared element has a chain of references read as paths), C41_every_enum."
  },
  {
   "property": "C42",
   "status": "proved",
   "theorems": [
    "Svd.C42_acyclic",
    "Svd.C42_refused",
    "Svd.C42_rounds"
   ],
   "note": ""
  },
  {
   "property": "C43",
   "status": "proved",
   "theorems": [
    "Svd.C43_all_processed",
    "Svd.C43_base_processed",
    "Svd.C43_sample"
   ],
   "note": "The base of a derived enumerated-values container need not be processed (finding); for the four other kinds it is."
  },
  {
   "property": "C44",
   "status": "partial",
   "theorems": [
    "Svd.C44_found",
    "Svd.C44_nothing",
    "Svd.C44_ambiguous",
    "Svd.C44_arbitrary_choice",
    "Svd.C44_sample"
   ],
   "note": "False of the code for ungrouped registers of a peripheral: C44_arbitrary_choice is a device in which one of several candidates is chosen by set order. Proved: what is found is of the same kind and carries the path; ambiguity between elements in the other cases raises."
  },
  {
   "property": "C45",
   "status": "proved",
   "theorems": [
    "Svd.C45_resolved",
    "Svd.C45_processed",
    "Svd.C45_sample"
   ],
   "note": "Also with dim. `DeviceBuilt` (Spec/Build.lean) is a recursive relation over the description that does not mention the graph; it includes the exact size rule."
  },
  {
   "property": "C46",
   "status": "partial",
   "theorems": [
    "Svd.C46_followed_partial",
    "Svd.C46_ends_partial",
    "Svd.C46_followable_sample",
    "Svd.C46_forward",
    "Svd.C46_derived_in_base",
    "Svd.C46_sample",
    "Svd.C46_through_dim",
    "Svd.C46_order_matters",
    "Svd.C46_enum_values_lost"
   ],
   "note": "C46_followed_partial/C46_ends_partial: if the references of a description are acyclic, name existing undimmed elements by the names they are declared with, and paths of several names lead to elements that can be completed early (Spec.Followable), processing ends and the resolver gives up on none of them (no loop, cycle, left-over or not-yet-processed base), for every declaration order, chain length and set iteration order; C56_derived: under the conditions of Spec.Resolvable the resolution succeeds. As stated the property is false of the code in four ways: a two-step chain through a dim element always fails (C46_through_dim), the declaration order can decide (C46_order_matters), a base with a derived element in it that is declared after the element derived from it makes processing fail with AttributeError (C46_derived_in_base), and a chain of enumerated-value containers can silently lose its values (C46_enum_values_lost)."
  },
  {
   "property": "C47",
   "status": "partial",
   "theorems": [
    "Svd.C47_ends_partial",
    "Svd.C47_endless",
    "Svd.C47_no_derived_cluster_partial",
    "Svd.C47_ends_sample",
    "Svd.C47_only_main_loop",
    "Svd.C47_more_rounds",
    "Svd.C47_underived_partial",
    "Svd.C45_sample"
   ],
   "note": "Proved: processing ends for every description in which no cluster lies, by way of containment and derivation, inside itself (in particular if no cluster is derived); everything but the resolver's main loop ends on every input. Missing: descriptions with a cluster inside itself, for which the property is false of the code: C47_endless gives a description whose processing ends after no number of rounds."
  },
  {
   "property": "C48",
   "status": "partial",
   "theorems": [
    "Svd.C48_exceptions_partial",
    "Svd.C48_undocumented"
   ],
   "note": "False of the code: seven ResolveException lines, ValueError, TypeError, AttributeError and KeyError escape on malformed (and some correct) descriptions; C48_undocumented has a description for each. The partial theorem shows, for every description, that nothing else escapes: the internal errors of the dependency graph and all other ResolveExceptions never occur."
  },
  {
   "property": "C49",
   "status": "proved",
   "theorems": [
    "Svd.C49_cpu",
    "Svd.C49_device"
   ],
   "note": ""
  },
  {
   "property": "C50",
   "status": "proved",
   "theorems": [
    "Svd.C50_strict",
    "Svd.C50_fallback",
    "Svd.C50_other_error",
    "Svd.C50_all_fail"
   ],
   "note": ""
  },
  {
   "property": "C51",
   "status": "proved",
   "theorems": [
    "Svd.C51_shipped",
    "Svd.C51_newest",
    "Svd.C51_exists",
    "Svd.C51_latest"
   ],
   "note": ""
  },
  {
   "property": "C52",
   "status": "proved",
   "theorems": [
    "Svd.C52_no_reserved",
    "Svd.C52_first_wins",
    "Svd.C52_two_defaults",
    "Svd.C52_exact",
    "Svd.C52_accepted"
   ],
   "note": "C52_exact: the values of every processed container are exactly (iff, ascending) those that the declared entries stand for (Spec/Container.lean), a function of the declaration. C52_accepted: which containers are accepted, iff."
  },
  {
   "property": "C53",
   "status": "partial",
   "theorems": [
    "Svd.C53_resolved",
    "Svd.C53_processed",
    "Svd.C53_exact",
    "Svd.C53_followed",
    "Svd.C53_followed_resolved",
    "Svd.C53_sample",
    "Svd.C53_followed_sample",
    "Svd.C53_full",
    "Svd.C53_full_resolved",
    "Svd.C53_full_sample",
    "Svd.C53_stray",
    "Svd.C53_endless",
    "Svd.C46_enum_values_lost"
   ],
   "note": "C53_exact proves it in full for descriptions in which no cluster is derived, C53_followed for those whose references can be followed (C46) and whose bases below the level of peripherals contain no derived element, with any derived clusters; C53_full adds the order and the sizes of peripherals and clusters (DeviceFull), if no reference can be read in two ways. In general the property is false of the code for clusters derived from clusters (C53_resolved states the two exceptions): a cluster may contain in addition a cluster derived from it or nested in its base, and a cluster that would contain itself is cut off; C53_stray and C53_endless show that both occur. A container of enumerated values whose base is itself derived may take over the base as declared instead of completed (Takes.unfinished; C46_enum_values_lost)."
  },
  {
   "property": "C54",
   "status": "proved",
   "theorems": [
    "Svd.C54_warnings",
    "Svd.C54_misaligned_reported",
    "Svd.C54_overlapping_blocks_reported",
    "Svd.C54_sample"
   ],
   "note": "Spec/Validate.lean states the conditions on the resolved peripherals (what those are for a given description: C45, C53). The warnings about overlaps are C28 and C29."
  },
  {
   "property": "C55",
   "status": "proved",
   "theorems": [
    "Svd.C55_refused_iff_defect",
    "Svd.C55_failure_explained",
    "Svd.C55_sample",
    "Svd.C55_size_zero"
   ],
   "note": "Failures of the resolution itself: C10, C11, C41, C42, C48."
  },
  {
   "property": "C56",
   "status": "proved",
   "theorems": [
    "Svd.C56_accepted",
    "Svd.C56_necessary",
    "Svd.C56_sample",
    "Svd.C56_derived",
    "Svd.C56_derived_sample",
    "Svd.C56_derived_accepted",
    "Svd.C56_exact",
    "Svd.C56_unbuildable",
    "Svd.C56_exact_sample"
   ],
   "note": "C56_derived covers descriptions with derivedFrom that meet Spec.Resolvable: references followable (C46), bases below peripherals without derived elements in them, unambiguous names in paths, and the data conditions of C56_accepted on the declarations completed by their bases. C56_exact: for descriptions without derivedFrom and without negative sizes, resolved if and only if Spec.Buildable (all texts, including those outside the schema; enumerated values included). C56_necessary is the converse half in terms of the forms of the schema."
  },
  {
   "property": "C57",
   "status": "proved",
   "theorems": [
    "Svd.C57_reads",
    "Svd.C57_unambiguous",
    "Svd.C57_written",
    "Svd.C57_refused",
    "Svd.C57_sample"
   ],
   "note": "The specification (Spec/Says.lean) names the element of the format for each attribute, independently of the parser; the text layer of lxml is trusted (XElem, reread)."
  },
  {
   "property": "C58",
   "status": "proved",
   "theorems": [
    "Svd.C58_warnings",
    "Svd.C58_silent",
    "Svd.C58_sample"
   ],
   "note": "Which warnings, not how often or in which order. Spec/Remarks.lean: what each kind of element contains, and what is remarkable."
  },
  {
   "property": "C59",
   "status": "proved",
   "theorems": [
    "Svd.C05_exact",
    "Svd.C08_exact",
    "Svd.C11_position",
    "Svd.C37_every_text",
    "Svd.C37_refused"
   ],
   "note": "Grammars: Spec/EnumLit.lean (Reads), Spec/DimText.lean (DimReads), Spec/Dim.lean (BitsOf), Spec/Literal.lean (IntText)."
  },
  {
   "property": "C60",
   "status": "partial",
   "theorems": [
    "Svd.C60_unshared_partial",
    "Svd.C60_underived_partial",
    "Svd.C60_sample",
    "Svd.C60_visible"
   ],
   "note": "processDeviceH (Model/Heap.lean) is the pipeline with object identities; equal to processDevice, including warnings, exceptions and fuel, for every description without derivedFrom, and for those whose references are followable (C46), unambiguous, and lead, below the level of peripherals, to elements without derived elements in them. False in general: C60_visible."
  },
  {
   "property": "C61",
   "status": "proved",
   "theorems": [
    "Svd.C61_sound",
    "Svd.C61_decl",
    "Svd.C61_entries",
    "Svd.C61_exact",
    "Svd.C61_underived",
    "Svd.C61_definite",
    "Svd.C61_sample",
    "Svd.C61_sample_derived"
   ],
   "note": "Sets of warnings (not their order or number). C61_sound/C61_decl/C61_entries hold for every accepted description; where the name in a derivedFrom leaves open by which element a declaration is completed, the reason is found in one of the possible completions. C61_exact is an equivalence if there is only one completion, C61_underived without derivedFrom. The warnings of the validation phase are those of C54."
  },
  {
   "property": "C62",
   "status": "proved",
   "theorems": [
    "Svd.C62_same",
    "Svd.C62_accepted",
    "Svd.C62_iteration",
    "Svd.reordered_symm",
    "Svd.C62_sample",
    "Svd.C62_exception_differs",
    "Svd.C62_derived",
    "Svd.C62_derived_sample"
   ],
   "note": "C62_same, C62_accepted, C62_iteration: descriptions without derivedFrom; C62_derived: with derivedFrom, under the conditions of C63, if both are accepted. C62_accepted assumes sizes that are not negative (the schema demands it), C62_same does not. Warnings as sets. Which exception is raised does depend on the order if there are several defects (C62_exception_differs)."
  },
  {
   "property": "C63",
   "status": "proved",
   "theorems": [
    "Svd.C63_same_device",
    "Svd.C61_definite",
    "Svd.C53_full_resolved",
    "Svd.C63_sample"
   ],
   "note": "For descriptions whose references can be followed (C46), without derived elements in bases below the level of peripherals, and Definite: no reference can be read in two ways, no dimIndex names an index twice, enumerated values are derived from ones that are not derived themselves (Spec/Definite.lean). For accepted runs; devices are equal, warnings equal as sets. For descriptions without derivedFrom see C62_iteration."
  },
  {
   "property": "C64",
   "status": "proved",
   "theorems": [
    "Svd.C64_change",
    "Svd.C64_objects",
    "Svd.C64_map",
    "Svd.C64_sample",
    "Svd.C64_move_needed"
   ],
   "note": "Equality of outcomes (exception, warnings, device) for every description, accepted or not, in the model without and with shared objects, and of the map. Change.Fair: the values the processing fills in by itself (0, 0xFFFFFFFF, any, modify) are left alone and the distance is a multiple of 4 (otherwise the warning about unaligned peripherals may differ: C64_move_needed)."
  },
  {
   "property": "C65",
   "status": "proved",
   "theorems": [
    "Svd.C65_kept",
    "Svd.C65_new",
    "Svd.C65_sample"
   ],
   "note": "For accepted runs, under the conditions of C63 for the larger description (Followable, Quiet, Definite). Equality of whole peripherals (with registers, clusters, fields, enumerated values); warnings as sets."
  },
  {
   "property": "C66",
   "status": "proved",
   "theorems": [
    "Svd.C66_same",
    "Svd.C66_accepted",
    "Svd.C66_sample"
   ],
   "note": "For descriptions without derivedFrom. Writing out is a relation (Spec/Unroll.lean) that leaves the choice of the elements open. Not compared: the warnings bitRangeReversed and msbLtLsb, which name the field or its bitRange as written. Acceptance for sizes that are not negative and at least two rounds."
  },
  {
   "property": "C67",
   "status": "proved",
   "theorems": [
    "Svd.C67_same",
    "Svd.C67_underived",
    "Svd.C67_exists",
    "Svd.C67_sample"
   ],
   "note": "For accepted runs (of both descriptions), under the conditions of C63 (Followable, Quiet, Definite). Writing out is a relation (Spec/Inline.lean) that leaves the order of the contents open; the completed attributes are those of C20/C53 (Spec/Elements.lean). That the description written out is accepted whenever the original is is not claimed."
  },
  {
   "property": "C68",
   "status": "proved",
   "theorems": [
    "Svd.C68_transparent",
    "Svd.C68_off",
    "Svd.C68_always",
    "Svd.C68_told",
    "Svd.C68_document",
    "Svd.C68_listed",
    "Svd.C68_drawn",
    "Svd.C68_last",
    "Svd.C68_refused",
    "Svd.C68_sample",
    "Svd.C68_refused_sample",
    "Svd.C68_refused_process_sample"
   ],
   "note": "The text is compared with Spec/Log.lean (a document as a list of entries). What graphviz is told to draw is modelled (get_svg), the drawing itself, rewriting of the SVG, gzip/base64 and the two page templates are arbitrary functions (assumed not to fail). The file is the one left when the resolver is garbage collected (__del__); log_finalize is never called."
  },
  {
   "property": "C69",
   "status": "proved",
   "theorems": [
    "Svd.C69_never_loops"
   ],
   "note": "For every iteration order of descendants that is a permutation; no condition on the description. The main loop may still not end (C47), but never with LoopException."
  },
  {
   "property": "C70",
   "status": "proved",
   "theorems": [
    "Svd.C70_rewritten",
    "Svd.C70_same",
    "Svd.C70_stable",
    "Svd.C70_processed",
    "Svd.C70_sample",
    "Svd.C70_survives",
    "Svd.C70_refused",
    "Svd.C70_moved"
   ],
   "note": "Filled, whole and WholeField are in Spec/Rewrite.lean. C70_refused and C70_moved show what the loss of a half position does to a derived field."
  },
  {
   "property": "C71",
   "status": "proved",
   "theorems": [
    "Svd.C71_written",
    "Svd.C71_converted",
    "Svd.C71_processed",
    "Svd.C71_enumerated_value",
    "Svd.C71_not_kept",
    "Svd.C71_kept_sample",
    "Svd.C71_reread",
    "Svd.C71_reread_sample",
    "Svd.C71_offset_only",
    "Svd.C71_text"
   ],
   "note": "The content models of 1.3.11.xsd are transcribed in Spec/Schema.lean as relations; the types of values, attributes and key constraints of the schema are not part of this. Both directions are proved. C71_reread is about documents without contents in vendorExtensions. C71_not_kept is a finding: a valid description whose processed device is written as an invalid document."
  }
 ]
}