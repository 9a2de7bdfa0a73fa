#!/usr/bin/env python3
"""Writes /verif/properties.jsonl. Kept as a script so that the list stays easy to edit."""
import json, sys
P = []
def p(id, title, statement, quantifier, why, anchors):
    P.append(dict(id=id, title=title, statement=statement, quantifier=quantifier, why_tests_cant=why, anchors=anchors))

PR="src/svdsuite/process.py"; RS="src/svdsuite/resolve/resolver.py"; GR="src/svdsuite/resolve/graph.py"
GB="src/svdsuite/resolve/graph_builder.py"; PA="src/svdsuite/parse.py"; SE="src/svdsuite/serialize.py"
MP="src/svdsuite/map.py"; CV="src/svdsuite/util/process_parse_model_convert.py"; TY="src/svdsuite/model/types.py"
PM="src/svdsuite/model/process.py"; XP="src/svdsuite/util/xml_parse.py"; VA="src/svdsuite/validate.py"

# --- enumerated values -------------------------------------------------------------------------------
p("C01","Don't-care bits expand to exactly the matching values",
  "When an enumeratedValue has a binary literal ('0b...' or '#...') made of 0, 1 and x, processing yields one enumerated value for every integer whose binary digits match the literal (x matches both), each exactly once, in ascending order, and no other integer.",
  "every non-empty pattern over {0,1,x}, of any length and with any number of x",
  "there are 3^n patterns of length n and 2^k results for k wildcards; a unit test fixes a handful of patterns",
  [f"{PR}:_ProcessEnumeratedValueContainer._convert_enumerated_value",f"{PR}:_replace_x_combinations",f"{PR}:_process_binary_value_with_wildcard"])
p("C02","A default enumerated value fills every hole exactly once",
  "If an enumeratedValues container of a w-bit field has an isDefault entry and processing succeeds, then the processed container lists exactly the values 0, 1, ..., 2^w-1, each once, in ascending order.",
  "every container, every field position, every set of explicit values (including out-of-range ones)",
  "the guarantee is about all 2^w values for every w and every subset already covered",
  [f"{PR}:_extend_enumerated_values_with_default",f"{PR}:_EnumeratedValueValidator",f"{PR}:_validate_and_finalize_enum_values"])
p("C03","Processed enumerated values are in range, distinct and sorted",
  "In every processed container the integer values are pairwise different, ascending, and each lies in 0..2^w-1 where w is the field width.",
  "every container in every processed device",
  "must hold for every list of enumerated values a vendor writes, including duplicates and out-of-range values",
  [f"{PR}:_EnumeratedValueValidator.is_value_valid",f"{PR}:_process_enumerated_values",f"{PR}:_validate_and_finalize_enum_values"])
p("C04","Enumerated value names are unique within a processed container",
  "No two enumerated values of one processed container share a name.",
  "every container in every processed device",
  "needs every combination of explicit names, wildcard-generated names and default-generated names",
  [f"{PR}:_EnumeratedValueValidator.is_value_valid",f"{PR}:_extend_enumerated_values_with_default"])
p("C05","Enumerated value literals mean what they say",
  "A decimal literal, a 0x literal and a 0b/# literal without don't-care bits each denote the single integer they spell, for every non-negative integer; any other literal is rejected with ProcessException and is never read as some number.",
  "every literal string / every non-negative integer",
  "infinitely many literals",
  [f"{PR}:_convert_enumerated_value"])
p("C06","A field ends up with at most one read and one write view",
  "A processed field has at most two enumerated value containers; their usages are pairwise different; if there are two they are exactly one 'read' and one 'write', listed in that order; every other combination is rejected.",
  "every list of enumeratedValues containers attached to a field (own, derived or copied)",
  "all combinations and orders of usages and container counts",
  [f"{RS}:_finalize_field_node",f"{PR}:_validate_and_finalize_enum_value_containers"])
# --- dim --------------------------------------------------------------------------------------------
p("C07","dim = n produces exactly n elements at an arithmetic progression of addresses",
  "A peripheral, cluster, register or field with dim=n and a name containing %s is replaced by exactly n elements; the i-th is named by substituting the i-th index and sits dimIncrement*i after the declared address/offset/bit position.",
  "every n >= 1, every name, every index string, every increment and start address, at every place of every accepted description (except inside clusters that would contain themselves without end)",
  "n, the names and the addresses are unbounded",
  [f"{PR}:_ProcessDimension",f"{PR}:_extract_and_process_dimension",f"{RS}:_process_dimable_node",f"{PR}:_process_register"])
p("C08","dimIndex strings expand to the indices they denote",
  "dimIndex absent gives 0..n-1; 'a-b' gives the decimals a..b; 'X-Y' gives the letters X..Y; a comma list gives its items with white space removed; in each case the result has exactly dim items or ProcessException is raised. A list is never returned with another length than dim.",
  "every dim and every dimIndex string",
  "unbounded strings and ranges",
  [f"{PR}:_process_dim_index"])
p("C09","Array expansion never creates two elements with one name",
  "The names generated from one dim element with default or numeric-range indices are pairwise different, and so are those generated from a list of pairwise different items, however often the marker occurs in the name.",
  "every name template and every n",
  "quantifies over all templates, including those in which the marker occurs several times",
  [f"{PR}:_process_dim_array",f"{PR}:_process_dim_list"])
p("C10","Inconsistent dim specifications are rejected",
  "dim < 1, a '%s' in the name (or displayName) without dim, an array marker on a field, a list marker on a peripheral, or a mismatch between array/list style of name and displayName always raises; none of them is silently accepted. The exception is ProcessException unless the dimIndex has the form of a range. (A dim without marker in the name is only a warning.)",
  "every element name, display name, dim and dimIndex",
  "all strings",
  [f"{PR}:_extract_and_process_dimension",f"{PR}:_ProcessDimension.process_dim"])
# --- fields -----------------------------------------------------------------------------------------
p("C11","The three field position notations agree",
  "bitOffset o + bitWidth w, lsb o + msb o+w-1, and bitRange '[o+w-1:o]' all give a processed field with the same lsb, msb, bit_offset, bit_width and bit_range; a reversed bitRange is normalised so that msb >= lsb. So rewriting, in any fields of a description, the position from one notation to another for the same bits changes nothing about the outcome of the processing.",
  "every offset and width (natural numbers), every description, accepted or refused",
  "infinitely many positions; the bitRange form goes through decimal formatting and a regular expression",
  [f"{PR}:_process_field_msb_lsb",f"{PM}:Field.from_intermediate_field"])
p("C12","Accepted registers have no conflicting fields, and only those are rejected",
  "If a register is accepted, no two of its fields that are both readable share a bit and no two that are both writable share a bit; conversely a set of well-formed, uniquely named fields without such a conflict is never rejected for overlap.",
  "every list of fields with any positions and access types",
  "all pairs in all lists of any length and order",
  [f"{PR}:_validate_and_finalize_fields"])
p("C13","Fields of a processed register are the declared ones, sorted by lsb, uniquely named",
  "The processed field list is sorted by lsb, has pairwise different names, contains no field called 'reserved' (any case), and contains every other field of the register exactly once.",
  "every register",
  "all field lists",
  [f"{PR}:_validate_and_finalize_fields"])
p("C14","Fields outside their register are reported, and only those",
  "A ProcessWarning about exceeding the register size is emitted for a field if and only if its msb is >= the register size.",
  "every register and field",
  "all positions and sizes",
  [f"{PR}:_validate_and_finalize_fields"])
# --- derivation / inheritance -----------------------------------------------------------------------
p("C15","derivedFrom: explicit values win, missing ones come from the base",
  "For a derived peripheral, cluster, register or field each inheritable attribute equals the element's own value if given, else the base's; name and address/offset always are the element's own; interrupts and headerStructName of a peripheral are never inherited; address blocks are inherited only if the element has none.",
  "every element and every base",
  "all combinations of present/absent attributes at four levels",
  [f"{PR}:_process_peripheral",f"{PR}:_process_cluster",f"{PR}:_process_register",f"{PR}:_process_field"])
p("C16","Derivation chains resolve to the nearest ancestor that defines the value",
  "Along a chain of derived elements e1 <- e2 <- ... <- en of any length, each inheritable attribute of en equals that of the closest element of the chain which defines it.",
  "chains of every length",
  "unbounded chain length",
  [f"{PR}:or_if_none",f"{PR}:_process_register"])
p("C17","Access, protection and reset properties come from the nearest enclosing definition",
  "For every processed register, cluster and peripheral, access, protection, reset_value and reset_mask equal the value given at the nearest enclosing level (element, clusters inside-out, peripheral, device), and the documented default (read-write, any, 0, 0xFFFFFFFF) if no level gives one; a field's access is its own or its register's.",
  "every device tree, any cluster nesting depth",
  "unbounded nesting and all presence patterns",
  [f"{PR}:_InheritProperties",f"{PR}:Process._process_device"])
p("C18","Processed elements are fully specified",
  "Every processed peripheral, cluster, register and field has concrete size/access/protection/reset values: processing never fails for lack of one of these properties.",
  "every device",
  "the internal 'must be specified' ValueErrors must be unreachable for all inputs",
  [f"{PM}:reg_prop_validator",f"{PM}:Field.from_intermediate_field",f"{PR}:_InheritProperties"])
p("C19","Effective size is the largest child size",
  "No register or cluster of a processed device is larger than the cluster or peripheral around it, and the size of a cluster or peripheral is the largest of the sizes of its registers and clusters (it may be larger only if an element was ignored with a warning).",
  "every device tree, any depth",
  "unbounded trees",
  [f"{RS}:_calculate_size",f"{RS}:_get_parent_size_recursively",f"{RS}:_finalize_cluster_node"])
p("C20","A device-level size has no influence on the elements",
  "Changing the size given at device level changes nothing in the processed device but the size recorded for the device itself: elements without a size on their path count with 32 bits. (The documentation says that the device's size is inherited: this is a finding.)",
  "every device",
  "all sizes and trees; the documented algorithm ('ultimately the device level') and the code differ",
  [f"{RS}:_get_parent_size_recursively",f"{PR}:Process._process_device"])
# --- finalisation -----------------------------------------------------------------------------------
p("C21","Absolute addresses are sums of offsets",
  "For every register and cluster in a processed device, base_address equals the peripheral's base address plus the offsets of all enclosing clusters plus its own offset.",
  "every device, any cluster nesting depth",
  "unbounded nesting",
  [f"{PR}:_validate_and_finalize_register_cluster"])
p("C22","peripheral.registers is the sorted flattening of the register tree",
  "peripheral.registers contains exactly the registers found anywhere below peripheral.registers_clusters, with multiplicity, sorted by (base_address, name).",
  "every peripheral, any nesting depth",
  "unbounded trees",
  [f"{PR}:_extract_registers"])
p("C23","Everything is sorted by address",
  "Peripherals are sorted by (base_address, name); the children of each peripheral and cluster by (base_address, alternate group, name); fields by lsb; address blocks by offset; interrupts by value.",
  "every processed device",
  "all inputs and all declaration orders",
  [f"{PR}:_validate_and_finalize_peripherals",f"{PR}:_validate_and_finalize_registers_clusters",f"{PR}:_process_address_blocks",f"{PR}:_process_interrupts"])
p("C24","Names identify elements",
  "In a processed device peripheral names are pairwise different, and within one peripheral or cluster the (alternate-group qualified) names of registers and clusters are pairwise different; otherwise ProcessException is raised.",
  "every device",
  "all pairs in all lists",
  [f"{PR}:_validate_and_finalize_peripherals",f"{PR}:_validate_and_finalize_registers_clusters"])
p("C25","Cluster and peripheral extents cover their contents exactly",
  "A cluster's end_address (a peripheral's end_address_effective) is the largest end address of a register contained in it at any depth, cluster_size/peripheral_size_effective is end - base + 1, and end_address/peripheral_size of a peripheral are the largest block end and the sum of block sizes.",
  "every processed device, any depth",
  "unbounded trees and block lists",
  [f"{PR}:_validate_and_finalize_register_cluster",f"{PR}:_validate_and_finalize_peripheral"])
p("C26","Nothing disappears without a warning",
  "Every peripheral, cluster, register (and field, enumerated value) that is resolved but not present in the processed device is reported by exactly one ProcessWarning saying that it is ignored; with no such warning the processed tree has all elements.",
  "every device",
  "all ways elements can be dropped, at any depth",
  [f"{PR}:_ValidateAndFinalize"])
p("C27","Processed register and cluster sizes are supported widths",
  "Every register and cluster in a processed device has size 8, 16, 32, 64 or 128 bits.",
  "every device",
  "all sizes",
  [f"{PR}:_get_alignment",f"{PR}:_to_byte",f"{PR}:_validate_and_finalize_register_cluster"])
p("C28","Overlapping registers/clusters are always reported, and only overlapping ones",
  "For any two registers/clusters of one scope without alternate group whose address ranges share a byte and that are not declared alternates of each other, a ProcessWarning naming both is emitted; every such warning names two elements of the scope that do overlap.",
  "every scope, every number of elements",
  "all pairs; the check is a sweep over a sorted list whose completeness is a sorting argument",
  [f"{PR}:_check_registers_clusters_address_overlaps"])
p("C29","Overlapping peripherals are always reported, and only overlapping ones",
  "For any two peripherals whose effective (or specified) address ranges overlap and neither of which declares an alternatePeripheral, a ProcessWarning naming both is emitted; every such warning names two peripherals whose ranges do overlap.",
  "every device",
  "all pairs",
  [f"{PR}:_check_peripheral_address_overlaps"])
p("C30","The set of permitted alternates is the connected component",
  "The alternates accepted for an element are exactly the names connected to its alternate by following 'alternate of' links in either direction; the computation terminates for every link structure, including cycles.",
  "every alternate graph",
  "arbitrary graphs including cycles",
  [f"{PR}:_compute_allowed_alternate_register_names",f"{PR}:_compute_allowed_alternate_peripheral_names",f"{PR}:_compute_allowed_alternate_cluster_names"])
p("C31","A dangling alternate is reported as a ProcessException",
  "If alternatePeripheral/alternateCluster names a missing element, processing fails with ProcessException (not with an internal KeyError).",
  "every device",
  "all reference graphs",
  [f"{PR}:_compute_allowed_alternate_peripheral_names",f"{PR}:_compute_allowed_alternate_cluster_names"])
# --- map --------------------------------------------------------------------------------------------
p("C32","The register map lists every register at its absolute address",
  "PeripheralRegisterMap has one entry per processed peripheral, sorted by address; the registers of an entry are exactly the registers of the peripheral (at any cluster depth), each at the address the processed device gives it.",
  "every processed device",
  "unbounded nesting; the map recomputes addresses independently",
  [f"{MP}:PeripheralRegisterMap"])
p("C33","allocated_range spans the address blocks",
  "allocated_range of a map peripheral runs from the smallest block start to the largest block end, i.e. its end equals the processed end_address.",
  "every list of address blocks",
  "all block layouts including nested and overlapping ones",
  [f"{MP}:_get_allocated_range",f"{PR}:_validate_and_finalize_peripheral"])
# --- conversion, XML --------------------------------------------------------------------------------
p("C34","A converted device is self-contained and loses nothing",
  "convert_processed_device_to_svd_device yields an SVD device without any derivedFrom and dim, with the same peripherals/clusters/registers/fields/enumerated values in the same order and the same attribute values.",
  "every processed device",
  "all trees",
  [f"{CV}:process_parse_convert_device"])
p("C35","Processing is idempotent through conversion",
  "Processing the converted result of a processed device succeeds and yields the same processed device, also if it is written as XML and read in between; provided that the device has a peripheral, no name of the processed device contains the text %s, the enumerated values of a container have different names, and the size of each peripheral and cluster is that of one of its members (the last holds whenever no element was ignored with a warning).",
  "every processed device",
  "a fixed-point law over all devices",
  [f"{PR}:Process.convert_processed_device_to_svd_device",f"{CV}:process_parse_convert_device",f"{RS}:Resolver.resolve_peripherals"])
p("C36","Serialise-then-parse is the identity",
  "Parsing the XML produced by Serializer for an SVD device gives back an equal SVD device (strings without leading/trailing blanks, non-empty; at least one peripheral; field positions complete).",
  "every SVD device, any nesting",
  "round trip over all devices and all optional-attribute patterns",
  [f"{SE}:SVDDeviceSerializer",f"{PA}:Parser"])
p("C37","Integers survive serialisation",
  "Every integer written in decimal or hexadecimal by the serializer is read back as the same integer; every decimal, hexadecimal, octal or binary ('#' or 0b) literal, signed or not, denotes its value; every other string raises. Underscores between digits are allowed, and '#' stands for 0b wherever it occurs.",
  "every integer / string",
  "infinitely many",
  [f"{PA}:_to_int",f"{SE}:SVDRegisterSerializer.to_xml"])
p("C38","Enumeration tokens survive serialisation",
  "For each token type (access, protection, endianness, CPU name, data type, ...) reading the serialized token of a member gives that member back.",
  "every member of every token type",
  "finite, but every member must be covered and distinct members must not collide",
  [f"{TY}"])
p("C39","Duplicate child elements: the last one wins, with a warning",
  "If an element contains a value child (one that is read as text) several times, its parsed value is the one of the last occurrence and a ParserWarning is emitted; a missing mandatory child raises; absent optional children give None.",
  "every element, any number of duplicates",
  "all child lists",
  [f"{PA}:Parser._parse_element_text"])
p("C40","Whitespace around values never matters",
  "Surrounding white space in an element that is stripped by the parser changes nothing but a warning: the parsed value equals that of the stripped text.",
  "every text and padding",
  "all strings",
  [f"{PA}:Parser._parse_element_text",f"{PA}:Parser._parse_element_attribute"])
# --- resolver ---------------------------------------------------------------------------------------
p("C41","A derivedFrom that names nothing is never ignored",
  "If a peripheral's derivedFrom does not lead, through existing peripherals, to an underived one (it dangles, or it is circular), processing raises an exception; it never returns a device.",
  "every device and every reference structure among peripherals",
  "all graphs of references, any length of cycle",
  [f"{RS}:resolve_peripherals",f"{RS}:_derived_from_path_resolving",f"{RS}:_process_node"])
p("C42","The inheritance graph stays acyclic",
  "At every point of resolution the graph of containment and inheritance relations has no directed cycle; an edge that would close one is refused with an exception.",
  "every reachable resolver state",
  "all histories of edge insertions",
  [f"{GR}:ResolverGraph.add_edge",f"{RS}:_resolve_placeholder"])
p("C43","A successful resolution leaves nothing unresolved",
  "If resolution returns, every element of the graph is processed and every derived element was built from a processed base element of the same kind.",
  "every device",
  "all schedules of rounds",
  [f"{RS}:resolve_peripherals",f"{GR}:get_unprocessed_nodes"])
p("C44","derivedFrom path look-up: sibling scope first, then the device, same kind, no ambiguity",
  "A derivedFrom path is looked up among the siblings first and from the device's peripherals second; the result is an element of the same kind whose path of names equals the given path and which is not the element itself; several candidates raise an exception instead of an arbitrary choice.",
  "every graph and path",
  "all name structures",
  [f"{RS}:_derived_from_path_resolving"])
p("C45","Resolving a device without derivedFrom is the plain recursive construction",
  "For a device without derivedFrom, the resolver's result is the recursively built tree: one element per declared element (dim elements per declared dim element), with its own attributes, children sorted by (offset, name), sizes adjusted as in C19.",
  "every such device, any size and depth",
  "refinement of a graph algorithm to a recursive function",
  [f"{RS}:resolve_peripherals",f"{GB}:GraphBuilder",f"{GR}:bottom_up_node_traversal"])
p("C46","References may point forward and through several steps",
  "A derivedFrom chain over existing elements of any length resolves regardless of the declaration order, including links to elements created by dim expansion.",
  "every acyclic reference structure and declaration order",
  "all orders and chains",
  [f"{RS}:resolve_peripherals",f"{RS}:_find_processable_nodes"])
p("C47","Processing always terminates",
  "Process returns or raises after finitely many resolver rounds for every parsed device.",
  "every device",
  "termination for all inputs; the only loop check compares two consecutive rounds",
  [f"{RS}:resolve_peripherals",f"{GR}:replicate_descendants"])
p("C48","Only documented exceptions escape from Process",
  "Errors in the SVD description surface as ProcessException.",
  "every device",
  "all error paths",
  [f"{PR}:Process._process_device",f"src/svdsuite/resolve/exception.py"])
# --- device level, IO -------------------------------------------------------------------------------
p("C49","CPU and SAU defaults",
  "Every optional CPU/SAU attribute of a processed device is the given value or the documented default (False; vtor and enabled True; protection secure), CM0+ is normalised to CM0PLUS, and all other attributes are copied.",
  "every CPU description",
  "all presence patterns",
  [f"{PR}:_process_cpu",f"{PR}:_process_sau_regions_config"])
p("C50","XML loading falls back in a fixed order and reports the original error",
  "Loading returns the strict parse if it succeeds (without warning), otherwise the first success in the documented order of fallback encodings, strict before recovering, with one warning naming the choice; if all attempts fail the error of the first attempt is raised.",
  "every behaviour of the XML library on the 11 attempts",
  "2^11 outcome patterns",
  [f"{XP}:safe_parse",f"{XP}:safe_fromstring"])
p("C51","The default schema is the newest one",
  "SVDSchemaVersion.get_latest returns the member whose version is greatest in numeric component-wise order.",
  "every list of versions",
  "lexicographic and numeric order differ (1.3.9 vs 1.3.10)",
  [f"{VA}:SVDSchemaVersion.get_latest"])
p("C52","Wildcard, reserved and duplicate enumerated values are handled per value",
  "An enumerated value called 'reserved' (any case) never appears; of several entries with equal name or equal value only the first is kept and each later one is reported by a warning; two defaults raise ProcessException. The values of a processed container are exactly those that its declared entries stand for, in ascending order, and are determined by the declaration.",
  "every list of enumerated values",
  "all interleavings of duplicates",
  [f"{PR}:_process_enumerated_value_resolve_wildcard",f"{PR}:_EnumeratedValueValidator"])
p("C53","A processed element contains exactly what its derivation chain declares",
  "For every description, whatever is derived from what: each element of the processed device is declared at some position of the description, its attributes are those of the declaration completed along its chain of derivedFrom references (read as paths of names), its children are the elements declared inside the members of that chain, and none of these is missing unless it is ignored with a warning.",
  "every device description, every derivedFrom graph, nesting and dim, every set iteration order",
  "derivations interact: children are copied before or after their own derivations are resolved, in an order that depends on the whole graph",
  [f"{RS}:Resolver.resolve_peripherals",f"{RS}:_process_node",f"{GB}:GraphBuilder"])
p("C54","The warnings of the validation are exactly the warranted ones",
  "After resolution, processing warns about a register or cluster whose size is no multiple of 8 bits or whose offset is not aligned to its size (at most 4 bytes), an empty cluster or peripheral, a reserved register or field, a field or enumerated value too large for its container, a misaligned or ill-sized peripheral, and adjacent overlapping address blocks - and it issues each such warning if and only if that condition holds of an element that is examined.",
  "every description that is processed, every nesting, size, offset and order of address blocks",
  "the conditions interact with inheritance of properties and with elements being dropped at any depth",
  [f"{PR}:_ValidateAndFinalize",f"{PR}:_get_alignment",f"{PR}:_validate_address_blocks"])
p("C55","A resolved description is refused exactly if it has a defect",
  "Once references and arrays are resolved, processing raises an exception if and only if the description has one of the listed defects: a supported-size violation, equally named siblings or peripherals, a register with both alternateRegister and alternateGroup, equally named or conflicting fields, an enumerated value without a value, a peripheral without address block, or a peripheral/cluster that is an alternate of none that is kept; and the exception raised belongs to a defect that is present.",
  "every description whose references and arrays resolve",
  "absence of other refusals is a statement about all descriptions",
  [f"{PR}:_ValidateAndFinalize"])
p("C56","Well-formed descriptions are accepted",
  "A description without derivedFrom whose dim attributes are consistent (markers, dim, dimIndex and display names fit together), whose fields state a position in one of the three notations, and whose enumerated values have well-formed literals, at most one default entry and at most one read and one write container per field, is never refused by the resolution; it is processed successfully unless it has one of the defects of C55. Conversely, a description without derivedFrom that is resolved meets these conditions: if no size is negative, it is resolved exactly if it has a peripheral, consistent dim attributes, and fields with a position and acceptable enumerated values. The same holds for descriptions with derivedFrom if the references are acyclic and unambiguous, bases below the level of peripherals contain no derived elements, and the declarations, completed by what they inherit, meet these conditions: they are resolved, and accepted unless the resolved description has a defect of C55.",
  "every description meeting the conditions, of any size and nesting, with any number of references, and every traversal order",
  "absence of spurious refusals is a statement about all descriptions",
  [f"{PR}:_ProcessDimension",f"{PR}:_process_field_msb_lsb",f"{PR}:_ProcessEnumeratedValueContainer",f"{RS}:Resolver.resolve_peripherals"])
p("C57","The parser reads exactly what the document says",
  "Parsing a document yields a device d exactly if the document says d: every attribute of the device, its CPU and SAU configuration, peripherals, address blocks, interrupts, clusters, registers, fields, enumerated values, dim and property groups is the value in the XML element or attribute of the CMSIS-SVD name (last occurrence, white space removed, integer literals and vocabulary words as defined by the format), all children are read in document order, and nothing else is read. A document says at most one device; a document that says none is refused with a parser error, an unsupported value or a type error. What the serializer writes for a device says that device.",
  "every XML element tree",
  "infinitely many documents; a tag read under the wrong name on one element kind stays unnoticed",
  [f"{PA}:Parser",f"{SE}:Serializer"])
p("C58","The parser warns exactly about what it repairs or passes over",
  "If a document is parsed, the warnings are exactly these: an element that is read once but given several times (the last one counts), white space cut off a text or attribute, an unknown word for an access type (it counts as none), an interrupt without a value (0), a device without a description and a missing location of the schema (empty) - each of them is reported for every element of the document that is read, and nothing else is reported. In particular a document parsed without a warning has none of these defects.",
  "every XML element tree",
  "a warning may be missing for one tag of one element kind only, and there are infinitely many documents",
  [f"{PA}:Parser","src/svdsuite/model/types.py:AccessType.from_str"])
p("C59","Texts are read by a fixed grammar, all others are refused",
  "For every text: the literal of an enumerated value is read as a determined list of integers or refused with ProcessException; a dimIndex is read as a determined list of indices, used only if it has dim entries, or refused; a bitRange (with lsb/msb and bitOffset/bitWidth as the other notations) gives a determined pair of bits or the field has no position; an integer element is read as a determined integer or refused. Which texts are read, and as what, is given by grammars that do not mention the conversion functions.",
  "every text (any length, any characters)",
  "infinitely many texts, among them those that int() and prefix regular expressions accept unexpectedly",
  [f"{PR}:_convert_enumerated_value",f"{PR}:_process_dim_index",f"{PR}:_process_field_msb_lsb",f"{PA}:Parser._to_int"])
p("C60","Elements of the result are independent of each other",
  "Processing gives the same device, the same warnings and the same exception as if every element of the result were an object of its own: that the elements of arrays in arrays, or elements found in several places, are the same mutable object during processing, and are changed in place when sizes are computed and properties are inherited, has no visible effect.",
  "every description, every traversal order",
  "aliasing effects depend on the order in which shared objects are changed, and on nesting of any depth",
  [f"{RS}:Resolver._update_dim_node",f"{RS}:Resolver._finalize_processing",f"{PR}:_InheritProperties"])
p("C61","Warnings about dim attributes, bit positions and enumerated values are exactly those warranted",
  "If processing succeeds, it has warned of an ignored dim (with the name of the declaration), a reversed bitRange (with its text), a highest bit below the lowest (with the name of the field), a value called reserved, a repeated value name or number (with name and number) and a default value with a number, exactly where a declaration of the description, completed by what it is derived from, gives reason for it; nothing of this is reported without such a reason, and no declaration with a reason is passed over.",
  "every accepted description, every traversal order, every warning",
  "both directions quantify over all declarations and all warnings; in an accepted description a declaration reached only by copying could be passed over",
  [f"{PR}:_extract_and_process_dimension",f"{PR}:_process_field_msb_lsb",f"{PR}:_EnumeratedValueValidator",f"{RS}:Resolver._process_node",f"{RS}:Resolver._finalize_processing"])
p("C62","The order of declarations makes no difference",
  "Two descriptions without derivedFrom that differ only in the order in which peripherals, registers, clusters, fields and enumeratedValues are declared (at any depth) are either both accepted or both refused; if accepted, they give the same device and the same warnings. The order in which Python iterates over sets makes no difference either. With derivedFrom, too, two such descriptions that are both accepted give the same device and the same warnings, provided that no reference can be read in two ways.",
  "every pair of such descriptions (any size and nesting, any permutation at any level), every iteration order of sets",
  "permutations of descriptions of any size; sorting with equal keys or lookups by name could let the order show through in rare cases only",
  [f"{PR}:_ValidateAndFinalize",f"{RS}:Resolver._finalize_processing",f"{RS}:Resolver.resolve"])
p("C63","Processing is deterministic",
  "The processed device and the set of warnings are functions of the description alone: for descriptions with derivedFrom, dim arrays and lists and derived enumeratedValues too, the order in which Python iterates over sets (and so the numbering of copied elements and the order in which they are processed) makes no difference to them.",
  "every description whose references can be followed, in one way only; every pair of iteration orders",
  "iteration orders cannot be enumerated for graphs of any size; a dependence on it would show only in runs with another hash seed or version",
  [f"{RS}:Resolver.resolve",f"{RS}:Resolver._finalize_processing",f"{PR}:_ValidateAndFinalize"])
p("C64","Attributes without structure are carried through; moving the peripherals moves every address",
  "Descriptions of elements, version, groupName, prependToName, appendToName, headerStructName, headerEnumName, disableCondition, interrupt names, usage and protection of address blocks, reset values and masks, protection, dataType, modifiedWriteValues, writeConstraint and readAction influence nothing but themselves: rewriting them uniformly in the description (leaving the defaults alone) rewrites them in the processed device in the same way (through derivation, dim expansion and inheritance), with the same warnings or the same exception. Moving all base addresses by the same number of words moves every address of the processed device and of the peripheral map by the same distance and changes nothing else.",
  "every description (any size, with derivedFrom, dim and inheritance, valid or not), every rewriting function for each attribute, every distance divisible by 4, every iteration order of sets",
  "rewriting functions and descriptions are unbounded; a test compares single attributes of single devices",
  [f"{PR}:_process_peripheral",f"{PR}:_ValidateAndFinalize",f"{RS}:Resolver.resolve","src/svdsuite/map.py:PeripheralRegisterMap"])
p("C65","Further peripherals change nothing about the others",
  "Adding peripherals to a description, in any place (derived from the ones that are there, or not), leaves the processed peripherals that were there as they are: each is in the new device with all it contains, equal in every attribute, in the same relative order; every warning about them is still given; and every other peripheral of the new device bears a name of one of the added peripherals or of its dim elements. (Condition: both descriptions are accepted and their references can be followed, in one way only.)",
  "every description whose references can be followed in one way only, every list of added peripherals, every position of the added ones and every order of the rest, every pair of iteration orders of sets",
  "the peripherals that are added and where are unbounded; interference would come from node numbering, name lookup or processing order, which tests of single devices do not vary",
  [f"{RS}:Resolver.resolve",f"{RS}:Resolver._finalize_processing",f"{PR}:_ValidateAndFinalize"])
p("C66","A dim element is an abbreviation",
  "Writing out the elements of a dim peripheral, cluster, register or field by hand (each with its name and display name filled in, its own address offset, base address or bits, and a copy of the content), for some or all of the dim elements, at any depth, changes nothing: the description is accepted exactly if the original is, and gives the same device, with the same warnings except those about how the bits of a field are written. (Condition: no derivedFrom; no marker is left in the filled names; for the acceptance: no negative sizes.)",
  "every description without derivedFrom, every choice of the dim elements that are written out (at any depth), every dimIndex form, every pair of iteration orders of sets",
  "the nesting of dim elements and the numbers of copies are unbounded and the choice of the written out ones is exponential; a test compares one pair of descriptions",
  [f"{RS}:Resolver.resolve",f"{RS}:Resolver._process_dimable_node",f"{PR}:process_dim",f"{PR}:_ValidateAndFinalize"])
p("C67","derivedFrom is an abbreviation",
  "Every accepted description can be written out without any derivedFrom: each peripheral, cluster, register and field is declared with the attributes it takes from the element it is derived from and with the content declared in its whole derivation chain, and each enumeratedValues with the values that count for it. The description written out in this way (in any order of the contents), if it is accepted as well, gives the same device, with the same warnings (apart from their order and number). (Condition: the references can be followed, in one way only.)",
  "every description whose references can be followed in one way only, with derivation chains of any length and nesting, every way of writing it out (order of the contents), every pair of iteration orders of sets",
  "derivation chains, nesting and the order of the written out content are unbounded; a test compares one pair of descriptions",
  [f"{RS}:Resolver.resolve",f"{RS}:Resolver._get_derived_from_base_node",f"{PR}:_process_peripheral",f"{PR}:_process_register",f"{PR}:_ValidateAndFinalize"])
LG="src/svdsuite/resolve/logger.py"; HG="src/svdsuite/util/html_generator.py"
p("C68","The resolver log changes nothing and tells what happened",
  "Asking for a resolver log does not change the result: the resolved peripherals, the warnings and the exception are the same with and without resolver_logging_file_path. Without a path no file is written; with a path a file is written in every case, also if the description is refused. The log of an accepted description is the sequence of headings, numbered drawings, followed derivedFrom paths and lists of elements of each round, in the order of the run; every declared element is listed for processing with its name (or 'no name') and kind, each under its own number, and none is listed twice. The log of a refused description tells in the same way everything up to the refusal: either a reference of the last round told cannot be followed, or one of the elements listed last cannot be processed, or the rounds are complete. The last drawing shows the final graph: no element in it is unprocessed (black), and if every reference can be followed no reference (red) and no derivation (green) is left in it.",
  "every description, accepted or refused, every number of rounds, every iteration order of sets, every drawing, compression and template function",
  "the log is interleaved with the work of the resolver; a test looks at the log of one run, and cannot show that logging never changes a result",
  [f"{LG}:ResolverLogger",f"{HG}:HTMLGenerator",f"{RS}:Resolver.resolve_peripherals",f"{RS}:Resolver._resolve_placeholder","src/svdsuite/resolve/graph.py:ResolverGraph.get_svg"])
p("C69","The resolver is never stuck: LoopException is not raised",
  "Whatever the description (valid or not, with any derivedFrom, cyclic or dangling), processing never ends with the exception for processing the same elements repeatedly: an element that has been processed is never offered for processing again.",
  "every description, every number of rounds, every iteration order of sets",
  "the check is dead code only if no history of rounds repeats its elements; tests can only fail to find such a history",
  [f"{RS}:Resolver.resolve_peripherals",f"{RS}:Resolver._get_topological_sorted_processable_nodes",f"{PR}:Process"])
p("C70","Reading, writing and reading again",
  "Reading an SVD document, writing the device with the serializer and reading the written document gives the same device, and processing it gives the same device or the same exception, if no value in the document is blank (and no free text empty), the device has a peripheral and no field has half a position (bitOffset without bitWidth, lsb without msb, or the other way round); the device is the same exactly if there is no half position, otherwise exactly the half positions are lost. A device that has been rewritten once is not changed by further rewriting: the same document is written. (Half positions are meaningful in derived fields: after rewriting, such a device can be refused, or a field can silently lie elsewhere.)",
  "every document the parser accepts, every formatting of the written document",
  "the set of documents is infinite and the property relates two different traversals; a test can compare a few files only",
  ["src/svdsuite/parse.py:Parser","src/svdsuite/serialize.py:Serializer","src/svdsuite/serialize.py:SVDFieldSerializer","src/svdsuite/process.py:_process_field_msb_lsb"])
p("C71","The structure of written documents",
  "The document the serializer writes for a device has the element structure of the newest shipped schema (which elements an element contains, in which order and how often) exactly when the device gives no more and no less than the schema asks for: at least one peripheral, dim and dimIncrement together and the other dim values only with them, exactly one of the three position notations for each field, exactly one kind of write constraint, exactly one of value and isDefault for each enumerated value, at most two enumeratedValues per field, not both alternateGroup and alternateRegister, and a description for each cluster.  For the conversion of a processed device this means: no enumerated value at all and a description for each cluster.  A document with this structure and with all values given has it again after reading and writing exactly when no field gives half a position (bitOffset without bitWidth)",
  "every device, and every processed device",
  "there are infinitely many devices; a test validates a few written files against the schema",
  ["src/svdsuite/serialize.py:Serializer","src/svdsuite/util/process_parse_model_convert.py:process_parse_convert_device","src/svdsuite/schema/1.3.11.xsd"])
with open("/verif/properties.jsonl","w") as f:
    for x in P: f.write(json.dumps(x)+"\n")
print(len(P))
