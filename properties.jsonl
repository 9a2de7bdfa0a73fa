{"id": "C01", "title": "Don't-care bits expand to exactly the matching values", "statement": "When an enumeratedValue has a binary literal ('0b...' or '#...') made of 0, 1 and x, processing yields one enumerated value for every integer whose binary digits match the literal (x matches both), each exactly once, in ascending order, and no other integer.", "quantifier": "every non-empty pattern over {0,1,x}, of any length and with any number of x", "why_tests_cant": "there are 3^n patterns of length n and 2^k results for k wildcards; a unit test fixes a handful of patterns", "anchors": ["src/svdsuite/process.py:_ProcessEnumeratedValueContainer._convert_enumerated_value", "src/svdsuite/process.py:_replace_x_combinations", "src/svdsuite/process.py:_process_binary_value_with_wildcard"]}
{"id": "C02", "title": "A default enumerated value fills every hole exactly once", "statement": "If an enumeratedValues container of a w-bit field has an isDefault entry and processing succeeds, then the processed container lists exactly the values 0, 1, ..., 2^w-1, each once, in ascending order.", "quantifier": "every container, every field position, every set of explicit values (including out-of-range ones)", "why_tests_cant": "the guarantee is about all 2^w values for every w and every subset already covered", "anchors": ["src/svdsuite/process.py:_extend_enumerated_values_with_default", "src/svdsuite/process.py:_EnumeratedValueValidator", "src/svdsuite/process.py:_validate_and_finalize_enum_values"]}
{"id": "C03", "title": "Processed enumerated values are in range, distinct and sorted", "statement": "In every processed container the integer values are pairwise different, ascending, and each lies in 0..2^w-1 where w is the field width.", "quantifier": "every container in every processed device", "why_tests_cant": "must hold for every list of enumerated values a vendor writes, including duplicates and out-of-range values", "anchors": ["src/svdsuite/process.py:_EnumeratedValueValidator.is_value_valid", "src/svdsuite/process.py:_process_enumerated_values", "src/svdsuite/process.py:_validate_and_finalize_enum_values"]}
{"id": "C04", "title": "Enumerated value names are unique within a processed container", "statement": "No two enumerated values of one processed container share a name.", "quantifier": "every container in every processed device", "why_tests_cant": "needs every combination of explicit names, wildcard-generated names and default-generated names", "anchors": ["src/svdsuite/process.py:_EnumeratedValueValidator.is_value_valid", "src/svdsuite/process.py:_extend_enumerated_values_with_default"]}
{"id": "C05", "title": "Enumerated value literals mean what they say", "statement": "A decimal literal, a 0x literal and a 0b/# literal without don't-care bits each denote the single integer they spell, for every non-negative integer; any other literal is rejected with ProcessException and is never read as some number.", "quantifier": "every literal string / every non-negative integer", "why_tests_cant": "infinitely many literals", "anchors": ["src/svdsuite/process.py:_convert_enumerated_value"]}
{"id": "C06", "title": "A field ends up with at most one read and one write view", "statement": "A processed field has at most two enumerated value containers; their usages are pairwise different; if there are two they are exactly one 'read' and one 'write', listed in that order; every other combination is rejected.", "quantifier": "every list of enumeratedValues containers attached to a field (own, derived or copied)", "why_tests_cant": "all combinations and orders of usages and container counts", "anchors": ["src/svdsuite/resolve/resolver.py:_finalize_field_node", "src/svdsuite/process.py:_validate_and_finalize_enum_value_containers"]}
{"id": "C07", "title": "dim = n produces exactly n elements at an arithmetic progression of addresses", "statement": "A peripheral, cluster, register or field with dim=n and a name containing %s is replaced by exactly n elements; the i-th is named by substituting the i-th index and sits dimIncrement*i after the declared address/offset/bit position.", "quantifier": "every n >= 1, every name, every index string, every increment and start address, at every place of every accepted description (except inside clusters that would contain themselves without end)", "why_tests_cant": "n, the names and the addresses are unbounded", "anchors": ["src/svdsuite/process.py:_ProcessDimension", "src/svdsuite/process.py:_extract_and_process_dimension", "src/svdsuite/resolve/resolver.py:_process_dimable_node", "src/svdsuite/process.py:_process_register"]}
{"id": "C08", "title": "dimIndex strings expand to the indices they denote", "statement": "dimIndex absent gives 0..n-1; 'a-b' gives the decimals a..b; 'X-Y' gives the letters X..Y; a comma list gives its items with white space removed; in each case the result has exactly dim items or ProcessException is raised. A list is never returned with another length than dim.", "quantifier": "every dim and every dimIndex string", "why_tests_cant": "unbounded strings and ranges", "anchors": ["src/svdsuite/process.py:_process_dim_index"]}
{"id": "C09", "title": "Array expansion never creates two elements with one name", "statement": "The names generated from one dim element with default or numeric-range indices are pairwise different, and so are those generated from a list of pairwise different items, however often the marker occurs in the name.", "quantifier": "every name template and every n", "why_tests_cant": "quantifies over all templates, including those in which the marker occurs several times", "anchors": ["src/svdsuite/process.py:_process_dim_array", "src/svdsuite/process.py:_process_dim_list"]}
{"id": "C10", "title": "Inconsistent dim specifications are rejected", "statement": "dim < 1, a '%s' in the name (or displayName) without dim, an array marker on a field, a list marker on a peripheral, or a mismatch between array/list style of name and displayName always raises; none of them is silently accepted. The exception is ProcessException unless the dimIndex has the form of a range. (A dim without marker in the name is only a warning.)", "quantifier": "every element name, display name, dim and dimIndex", "why_tests_cant": "all strings", "anchors": ["src/svdsuite/process.py:_extract_and_process_dimension", "src/svdsuite/process.py:_ProcessDimension.process_dim"]}
{"id": "C11", "title": "The three field position notations agree", "statement": "bitOffset o + bitWidth w, lsb o + msb o+w-1, and bitRange '[o+w-1:o]' all give a processed field with the same lsb, msb, bit_offset, bit_width and bit_range; a reversed bitRange is normalised so that msb >= lsb. So rewriting, in any fields of a description, the position from one notation to another for the same bits changes nothing about the outcome of the processing.", "quantifier": "every offset and width (natural numbers), every description, accepted or refused", "why_tests_cant": "infinitely many positions; the bitRange form goes through decimal formatting and a regular expression", "anchors": ["src/svdsuite/process.py:_process_field_msb_lsb", "src/svdsuite/model/process.py:Field.from_intermediate_field"]}
{"id": "C12", "title": "Accepted registers have no conflicting fields, and only those are rejected", "statement": "If a register is accepted, no two of its fields that are both readable share a bit and no two that are both writable share a bit; conversely a set of well-formed, uniquely named fields without such a conflict is never rejected for overlap.", "quantifier": "every list of fields with any positions and access types", "why_tests_cant": "all pairs in all lists of any length and order", "anchors": ["src/svdsuite/process.py:_validate_and_finalize_fields"]}
{"id": "C13", "title": "Fields of a processed register are the declared ones, sorted by lsb, uniquely named", "statement": "The processed field list is sorted by lsb, has pairwise different names, contains no field called 'reserved' (any case), and contains every other field of the register exactly once.", "quantifier": "every register", "why_tests_cant": "all field lists", "anchors": ["src/svdsuite/process.py:_validate_and_finalize_fields"]}
{"id": "C14", "title": "Fields outside their register are reported, and only those", "statement": "A ProcessWarning about exceeding the register size is emitted for a field if and only if its msb is >= the register size.", "quantifier": "every register and field", "why_tests_cant": "all positions and sizes", "anchors": ["src/svdsuite/process.py:_validate_and_finalize_fields"]}
{"id": "C15", "title": "derivedFrom: explicit values win, missing ones come from the base", "statement": "For a derived peripheral, cluster, register or field each inheritable attribute equals the element's own value if given, else the base's; name and address/offset always are the element's own; interrupts and headerStructName of a peripheral are never inherited; address blocks are inherited only if the element has none.", "quantifier": "every element and every base", "why_tests_cant": "all combinations of present/absent attributes at four levels", "anchors": ["src/svdsuite/process.py:_process_peripheral", "src/svdsuite/process.py:_process_cluster", "src/svdsuite/process.py:_process_register", "src/svdsuite/process.py:_process_field"]}
{"id": "C16", "title": "Derivation chains resolve to the nearest ancestor that defines the value", "statement": "Along a chain of derived elements e1 <- e2 <- ... <- en of any length, each inheritable attribute of en equals that of the closest element of the chain which defines it.", "quantifier": "chains of every length", "why_tests_cant": "unbounded chain length", "anchors": ["src/svdsuite/process.py:or_if_none", "src/svdsuite/process.py:_process_register"]}
{"id": "C17", "title": "Access, protection and reset properties come from the nearest enclosing definition", "statement": "For every processed register, cluster and peripheral, access, protection, reset_value and reset_mask equal the value given at the nearest enclosing level (element, clusters inside-out, peripheral, device), and the documented default (read-write, any, 0, 0xFFFFFFFF) if no level gives one; a field's access is its own or its register's.", "quantifier": "every device tree, any cluster nesting depth", "why_tests_cant": "unbounded nesting and all presence patterns", "anchors": ["src/svdsuite/process.py:_InheritProperties", "src/svdsuite/process.py:Process._process_device"]}
{"id": "C18", "title": "Processed elements are fully specified", "statement": "Every processed peripheral, cluster, register and field has concrete size/access/protection/reset values: processing never fails for lack of one of these properties.", "quantifier": "every device", "why_tests_cant": "the internal 'must be specified' ValueErrors must be unreachable for all inputs", "anchors": ["src/svdsuite/model/process.py:reg_prop_validator", "src/svdsuite/model/process.py:Field.from_intermediate_field", "src/svdsuite/process.py:_InheritProperties"]}
{"id": "C19", "title": "Effective size is the largest child size", "statement": "No register or cluster of a processed device is larger than the cluster or peripheral around it, and the size of a cluster or peripheral is the largest of the sizes of its registers and clusters (it may be larger only if an element was ignored with a warning).", "quantifier": "every device tree, any depth", "why_tests_cant": "unbounded trees", "anchors": ["src/svdsuite/resolve/resolver.py:_calculate_size", "src/svdsuite/resolve/resolver.py:_get_parent_size_recursively", "src/svdsuite/resolve/resolver.py:_finalize_cluster_node"]}
{"id": "C20", "title": "A device-level size has no influence on the elements", "statement": "Changing the size given at device level changes nothing in the processed device but the size recorded for the device itself: elements without a size on their path count with 32 bits. (The documentation says that the device's size is inherited: this is a finding.)", "quantifier": "every device", "why_tests_cant": "all sizes and trees; the documented algorithm ('ultimately the device level') and the code differ", "anchors": ["src/svdsuite/resolve/resolver.py:_get_parent_size_recursively", "src/svdsuite/process.py:Process._process_device"]}
{"id": "C21", "title": "Absolute addresses are sums of offsets", "statement": "For every register and cluster in a processed device, base_address equals the peripheral's base address plus the offsets of all enclosing clusters plus its own offset.", "quantifier": "every device, any cluster nesting depth", "why_tests_cant": "unbounded nesting", "anchors": ["src/svdsuite/process.py:_validate_and_finalize_register_cluster"]}
{"id": "C22", "title": "peripheral.registers is the sorted flattening of the register tree", "statement": "peripheral.registers contains exactly the registers found anywhere below peripheral.registers_clusters, with multiplicity, sorted by (base_address, name).", "quantifier": "every peripheral, any nesting depth", "why_tests_cant": "unbounded trees", "anchors": ["src/svdsuite/process.py:_extract_registers"]}
{"id": "C23", "title": "Everything is sorted by address", "statement": "Peripherals are sorted by (base_address, name); the children of each peripheral and cluster by (base_address, alternate group, name); fields by lsb; address blocks by offset; interrupts by value.", "quantifier": "every processed device", "why_tests_cant": "all inputs and all declaration orders", "anchors": ["src/svdsuite/process.py:_validate_and_finalize_peripherals", "src/svdsuite/process.py:_validate_and_finalize_registers_clusters", "src/svdsuite/process.py:_process_address_blocks", "src/svdsuite/process.py:_process_interrupts"]}
{"id": "C24", "title": "Names identify elements", "statement": "In a processed device peripheral names are pairwise different, and within one peripheral or cluster the (alternate-group qualified) names of registers and clusters are pairwise different; otherwise ProcessException is raised.", "quantifier": "every device", "why_tests_cant": "all pairs in all lists", "anchors": ["src/svdsuite/process.py:_validate_and_finalize_peripherals", "src/svdsuite/process.py:_validate_and_finalize_registers_clusters"]}
{"id": "C25", "title": "Cluster and peripheral extents cover their contents exactly", "statement": "A cluster's end_address (a peripheral's end_address_effective) is the largest end address of a register contained in it at any depth, cluster_size/peripheral_size_effective is end - base + 1, and end_address/peripheral_size of a peripheral are the largest block end and the sum of block sizes.", "quantifier": "every processed device, any depth", "why_tests_cant": "unbounded trees and block lists", "anchors": ["src/svdsuite/process.py:_validate_and_finalize_register_cluster", "src/svdsuite/process.py:_validate_and_finalize_peripheral"]}
{"id": "C26", "title": "Nothing disappears without a warning", "statement": "Every peripheral, cluster, register (and field, enumerated value) that is resolved but not present in the processed device is reported by exactly one ProcessWarning saying that it is ignored; with no such warning the processed tree has all elements.", "quantifier": "every device", "why_tests_cant": "all ways elements can be dropped, at any depth", "anchors": ["src/svdsuite/process.py:_ValidateAndFinalize"]}
{"id": "C27", "title": "Processed register and cluster sizes are supported widths", "statement": "Every register and cluster in a processed device has size 8, 16, 32, 64 or 128 bits.", "quantifier": "every device", "why_tests_cant": "all sizes", "anchors": ["src/svdsuite/process.py:_get_alignment", "src/svdsuite/process.py:_to_byte", "src/svdsuite/process.py:_validate_and_finalize_register_cluster"]}
{"id": "C28", "title": "Overlapping registers/clusters are always reported, and only overlapping ones", "statement": "For any two registers/clusters of one scope without alternate group whose address ranges share a byte and that are not declared alternates of each other, a ProcessWarning naming both is emitted; every such warning names two elements of the scope that do overlap.", "quantifier": "every scope, every number of elements", "why_tests_cant": "all pairs; the check is a sweep over a sorted list whose completeness is a sorting argument", "anchors": ["src/svdsuite/process.py:_check_registers_clusters_address_overlaps"]}
{"id": "C29", "title": "Overlapping peripherals are always reported, and only overlapping ones", "statement": "For any two peripherals whose effective (or specified) address ranges overlap and neither of which declares an alternatePeripheral, a ProcessWarning naming both is emitted; every such warning names two peripherals whose ranges do overlap.", "quantifier": "every device", "why_tests_cant": "all pairs", "anchors": ["src/svdsuite/process.py:_check_peripheral_address_overlaps"]}
{"id": "C30", "title": "The set of permitted alternates is the connected component", "statement": "The alternates accepted for an element are exactly the names connected to its alternate by following 'alternate of' links in either direction; the computation terminates for every link structure, including cycles.", "quantifier": "every alternate graph", "why_tests_cant": "arbitrary graphs including cycles", "anchors": ["src/svdsuite/process.py:_compute_allowed_alternate_register_names", "src/svdsuite/process.py:_compute_allowed_alternate_peripheral_names", "src/svdsuite/process.py:_compute_allowed_alternate_cluster_names"]}
{"id": "C31", "title": "A dangling alternate is reported as a ProcessException", "statement": "If alternatePeripheral/alternateCluster names a missing element, processing fails with ProcessException (not with an internal KeyError).", "quantifier": "every device", "why_tests_cant": "all reference graphs", "anchors": ["src/svdsuite/process.py:_compute_allowed_alternate_peripheral_names", "src/svdsuite/process.py:_compute_allowed_alternate_cluster_names"]}
{"id": "C32", "title": "The register map lists every register at its absolute address", "statement": "PeripheralRegisterMap has one entry per processed peripheral, sorted by address; the registers of an entry are exactly the registers of the peripheral (at any cluster depth), each at the address the processed device gives it.", "quantifier": "every processed device", "why_tests_cant": "unbounded nesting; the map recomputes addresses independently", "anchors": ["src/svdsuite/map.py:PeripheralRegisterMap"]}
{"id": "C33", "title": "allocated_range spans the address blocks", "statement": "allocated_range of a map peripheral runs from the smallest block start to the largest block end, i.e. its end equals the processed end_address.", "quantifier": "every list of address blocks", "why_tests_cant": "all block layouts including nested and overlapping ones", "anchors": ["src/svdsuite/map.py:_get_allocated_range", "src/svdsuite/process.py:_validate_and_finalize_peripheral"]}
{"id": "C34", "title": "A converted device is self-contained and loses nothing", "statement": "convert_processed_device_to_svd_device yields an SVD device without any derivedFrom and dim, with the same peripherals/clusters/registers/fields/enumerated values in the same order and the same attribute values.", "quantifier": "every processed device", "why_tests_cant": "all trees", "anchors": ["src/svdsuite/util/process_parse_model_convert.py:process_parse_convert_device"]}
{"id": "C35", "title": "Processing is idempotent through conversion", "statement": "Processing the converted result of a processed device succeeds and yields the same processed device, also if it is written as XML and read in between; provided that the device has a peripheral, no name of the processed device contains the text %s, the enumerated values of a container have different names, and the size of each peripheral and cluster is that of one of its members (the last holds whenever no element was ignored with a warning).", "quantifier": "every processed device", "why_tests_cant": "a fixed-point law over all devices", "anchors": ["src/svdsuite/process.py:Process.convert_processed_device_to_svd_device", "src/svdsuite/util/process_parse_model_convert.py:process_parse_convert_device", "src/svdsuite/resolve/resolver.py:Resolver.resolve_peripherals"]}
{"id": "C36", "title": "Serialise-then-parse is the identity", "statement": "Parsing the XML produced by Serializer for an SVD device gives back an equal SVD device (strings without leading/trailing blanks, non-empty; at least one peripheral; field positions complete).", "quantifier": "every SVD device, any nesting", "why_tests_cant": "round trip over all devices and all optional-attribute patterns", "anchors": ["src/svdsuite/serialize.py:SVDDeviceSerializer", "src/svdsuite/parse.py:Parser"]}
{"id": "C37", "title": "Integers survive serialisation", "statement": "Every integer written in decimal or hexadecimal by the serializer is read back as the same integer; every decimal, hexadecimal, octal or binary ('#' or 0b) literal, signed or not, denotes its value; every other string raises. Underscores between digits are allowed, and '#' stands for 0b wherever it occurs.", "quantifier": "every integer / string", "why_tests_cant": "infinitely many", "anchors": ["src/svdsuite/parse.py:_to_int", "src/svdsuite/serialize.py:SVDRegisterSerializer.to_xml"]}
{"id": "C38", "title": "Enumeration tokens survive serialisation", "statement": "For each token type (access, protection, endianness, CPU name, data type, ...) reading the serialized token of a member gives that member back.", "quantifier": "every member of every token type", "why_tests_cant": "finite, but every member must be covered and distinct members must not collide", "anchors": ["src/svdsuite/model/types.py"]}
{"id": "C39", "title": "Duplicate child elements: the last one wins, with a warning", "statement": "If an element contains a value child (one that is read as text) several times, its parsed value is the one of the last occurrence and a ParserWarning is emitted; a missing mandatory child raises; absent optional children give None.", "quantifier": "every element, any number of duplicates", "why_tests_cant": "all child lists", "anchors": ["src/svdsuite/parse.py:Parser._parse_element_text"]}
{"id": "C40", "title": "Whitespace around values never matters", "statement": "Surrounding white space in an element that is stripped by the parser changes nothing but a warning: the parsed value equals that of the stripped text.", "quantifier": "every text and padding", "why_tests_cant": "all strings", "anchors": ["src/svdsuite/parse.py:Parser._parse_element_text", "src/svdsuite/parse.py:Parser._parse_element_attribute"]}
{"id": "C41", "title": "A derivedFrom that names nothing is never ignored", "statement": "If a peripheral's derivedFrom does not lead, through existing peripherals, to an underived one (it dangles, or it is circular), processing raises an exception; it never returns a device.", "quantifier": "every device and every reference structure among peripherals", "why_tests_cant": "all graphs of references, any length of cycle", "anchors": ["src/svdsuite/resolve/resolver.py:resolve_peripherals", "src/svdsuite/resolve/resolver.py:_derived_from_path_resolving", "src/svdsuite/resolve/resolver.py:_process_node"]}
{"id": "C42", "title": "The inheritance graph stays acyclic", "statement": "At every point of resolution the graph of containment and inheritance relations has no directed cycle; an edge that would close one is refused with an exception.", "quantifier": "every reachable resolver state", "why_tests_cant": "all histories of edge insertions", "anchors": ["src/svdsuite/resolve/graph.py:ResolverGraph.add_edge", "src/svdsuite/resolve/resolver.py:_resolve_placeholder"]}
{"id": "C43", "title": "A successful resolution leaves nothing unresolved", "statement": "If resolution returns, every element of the graph is processed and every derived element was built from a processed base element of the same kind.", "quantifier": "every device", "why_tests_cant": "all schedules of rounds", "anchors": ["src/svdsuite/resolve/resolver.py:resolve_peripherals", "src/svdsuite/resolve/graph.py:get_unprocessed_nodes"]}
{"id": "C44", "title": "derivedFrom path look-up: sibling scope first, then the device, same kind, no ambiguity", "statement": "A derivedFrom path is looked up among the siblings first and from the device's peripherals second; the result is an element of the same kind whose path of names equals the given path and which is not the element itself; several candidates raise an exception instead of an arbitrary choice.", "quantifier": "every graph and path", "why_tests_cant": "all name structures", "anchors": ["src/svdsuite/resolve/resolver.py:_derived_from_path_resolving"]}
{"id": "C45", "title": "Resolving a device without derivedFrom is the plain recursive construction", "statement": "For a device without derivedFrom, the resolver's result is the recursively built tree: one element per declared element (dim elements per declared dim element), with its own attributes, children sorted by (offset, name), sizes adjusted as in C19.", "quantifier": "every such device, any size and depth", "why_tests_cant": "refinement of a graph algorithm to a recursive function", "anchors": ["src/svdsuite/resolve/resolver.py:resolve_peripherals", "src/svdsuite/resolve/graph_builder.py:GraphBuilder", "src/svdsuite/resolve/graph.py:bottom_up_node_traversal"]}
{"id": "C46", "title": "References may point forward and through several steps", "statement": "A derivedFrom chain over existing elements of any length resolves regardless of the declaration order, including links to elements created by dim expansion.", "quantifier": "every acyclic reference structure and declaration order", "why_tests_cant": "all orders and chains", "anchors": ["src/svdsuite/resolve/resolver.py:resolve_peripherals", "src/svdsuite/resolve/resolver.py:_find_processable_nodes"]}
{"id": "C47", "title": "Processing always terminates", "statement": "Process returns or raises after finitely many resolver rounds for every parsed device.", "quantifier": "every device", "why_tests_cant": "termination for all inputs; the only loop check compares two consecutive rounds", "anchors": ["src/svdsuite/resolve/resolver.py:resolve_peripherals", "src/svdsuite/resolve/graph.py:replicate_descendants"]}
{"id": "C48", "title": "Only documented exceptions escape from Process", "statement": "Errors in the SVD description surface as ProcessException.", "quantifier": "every device", "why_tests_cant": "all error paths", "anchors": ["src/svdsuite/process.py:Process._process_device", "src/svdsuite/resolve/exception.py"]}
{"id": "C49", "title": "CPU and SAU defaults", "statement": "Every optional CPU/SAU attribute of a processed device is the given value or the documented default (False; vtor and enabled True; protection secure), CM0+ is normalised to CM0PLUS, and all other attributes are copied.", "quantifier": "every CPU description", "why_tests_cant": "all presence patterns", "anchors": ["src/svdsuite/process.py:_process_cpu", "src/svdsuite/process.py:_process_sau_regions_config"]}
{"id": "C50", "title": "XML loading falls back in a fixed order and reports the original error", "statement": "Loading returns the strict parse if it succeeds (without warning), otherwise the first success in the documented order of fallback encodings, strict before recovering, with one warning naming the choice; if all attempts fail the error of the first attempt is raised.", "quantifier": "every behaviour of the XML library on the 11 attempts", "why_tests_cant": "2^11 outcome patterns", "anchors": ["src/svdsuite/util/xml_parse.py:safe_parse", "src/svdsuite/util/xml_parse.py:safe_fromstring"]}
{"id": "C51", "title": "The default schema is the newest one", "statement": "SVDSchemaVersion.get_latest returns the member whose version is greatest in numeric component-wise order.", "quantifier": "every list of versions", "why_tests_cant": "lexicographic and numeric order differ (1.3.9 vs 1.3.10)", "anchors": ["src/svdsuite/validate.py:SVDSchemaVersion.get_latest"]}
{"id": "C52", "title": "Wildcard, reserved and duplicate enumerated values are handled per value", "statement": "An enumerated value called 'reserved' (any case) never appears; of several entries with equal name or equal value only the first is kept and each later one is reported by a warning; two defaults raise ProcessException. The values of a processed container are exactly those that its declared entries stand for, in ascending order, and are determined by the declaration.", "quantifier": "every list of enumerated values", "why_tests_cant": "all interleavings of duplicates", "anchors": ["src/svdsuite/process.py:_process_enumerated_value_resolve_wildcard", "src/svdsuite/process.py:_EnumeratedValueValidator"]}
{"id": "C53", "title": "A processed element contains exactly what its derivation chain declares", "statement": "For every description, whatever is derived from what: each element of the processed device is declared at some position of the description, its attributes are those of the declaration completed along its chain of derivedFrom references (read as paths of names), its children are the elements declared inside the members of that chain, and none of these is missing unless it is ignored with a warning.", "quantifier": "every device description, every derivedFrom graph, nesting and dim, every set iteration order", "why_tests_cant": "derivations interact: children are copied before or after their own derivations are resolved, in an order that depends on the whole graph", "anchors": ["src/svdsuite/resolve/resolver.py:Resolver.resolve_peripherals", "src/svdsuite/resolve/resolver.py:_process_node", "src/svdsuite/resolve/graph_builder.py:GraphBuilder"]}
{"id": "C54", "title": "The warnings of the validation are exactly the warranted ones", "statement": "After resolution, processing warns about a register or cluster whose size is no multiple of 8 bits or whose offset is not aligned to its size (at most 4 bytes), an empty cluster or peripheral, a reserved register or field, a field or enumerated value too large for its container, a misaligned or ill-sized peripheral, and adjacent overlapping address blocks - and it issues each such warning if and only if that condition holds of an element that is examined.", "quantifier": "every description that is processed, every nesting, size, offset and order of address blocks", "why_tests_cant": "the conditions interact with inheritance of properties and with elements being dropped at any depth", "anchors": ["src/svdsuite/process.py:_ValidateAndFinalize", "src/svdsuite/process.py:_get_alignment", "src/svdsuite/process.py:_validate_address_blocks"]}
{"id": "C55", "title": "A resolved description is refused exactly if it has a defect", "statement": "Once references and arrays are resolved, processing raises an exception if and only if the description has one of the listed defects: a supported-size violation, equally named siblings or peripherals, a register with both alternateRegister and alternateGroup, equally named or conflicting fields, an enumerated value without a value, a peripheral without address block, or a peripheral/cluster that is an alternate of none that is kept; and the exception raised belongs to a defect that is present.", "quantifier": "every description whose references and arrays resolve", "why_tests_cant": "absence of other refusals is a statement about all descriptions", "anchors": ["src/svdsuite/process.py:_ValidateAndFinalize"]}
{"id": "C56", "title": "Well-formed descriptions are accepted", "statement": "A description without derivedFrom whose dim attributes are consistent (markers, dim, dimIndex and display names fit together), whose fields state a position in one of the three notations, and whose enumerated values have well-formed literals, at most one default entry and at most one read and one write container per field, is never refused by the resolution; it is processed successfully unless it has one of the defects of C55. Conversely, a description without derivedFrom that is resolved meets these conditions: if no size is negative, it is resolved exactly if it has a peripheral, consistent dim attributes, and fields with a position and acceptable enumerated values. The same holds for descriptions with derivedFrom if the references are acyclic and unambiguous, bases below the level of peripherals contain no derived elements, and the declarations, completed by what they inherit, meet these conditions: they are resolved, and accepted unless the resolved description has a defect of C55.", "quantifier": "every description meeting the conditions, of any size and nesting, with any number of references, and every traversal order", "why_tests_cant": "absence of spurious refusals is a statement about all descriptions", "anchors": ["src/svdsuite/process.py:_ProcessDimension", "src/svdsuite/process.py:_process_field_msb_lsb", "src/svdsuite/process.py:_ProcessEnumeratedValueContainer", "src/svdsuite/resolve/resolver.py:Resolver.resolve_peripherals"]}
{"id": "C57", "title": "The parser reads exactly what the document says", "statement": "Parsing a document yields a device d exactly if the document says d: every attribute of the device, its CPU and SAU configuration, peripherals, address blocks, interrupts, clusters, registers, fields, enumerated values, dim and property groups is the value in the XML element or attribute of the CMSIS-SVD name (last occurrence, white space removed, integer literals and vocabulary words as defined by the format), all children are read in document order, and nothing else is read. A document says at most one device; a document that says none is refused with a parser error, an unsupported value or a type error. What the serializer writes for a device says that device.", "quantifier": "every XML element tree", "why_tests_cant": "infinitely many documents; a tag read under the wrong name on one element kind stays unnoticed", "anchors": ["src/svdsuite/parse.py:Parser", "src/svdsuite/serialize.py:Serializer"]}
{"id": "C58", "title": "The parser warns exactly about what it repairs or passes over", "statement": "If a document is parsed, the warnings are exactly these: an element that is read once but given several times (the last one counts), white space cut off a text or attribute, an unknown word for an access type (it counts as none), an interrupt without a value (0), a device without a description and a missing location of the schema (empty) - each of them is reported for every element of the document that is read, and nothing else is reported. In particular a document parsed without a warning has none of these defects.", "quantifier": "every XML element tree", "why_tests_cant": "a warning may be missing for one tag of one element kind only, and there are infinitely many documents", "anchors": ["src/svdsuite/parse.py:Parser", "src/svdsuite/model/types.py:AccessType.from_str"]}
{"id": "C59", "title": "Texts are read by a fixed grammar, all others are refused", "statement": "For every text: the literal of an enumerated value is read as a determined list of integers or refused with ProcessException; a dimIndex is read as a determined list of indices, used only if it has dim entries, or refused; a bitRange (with lsb/msb and bitOffset/bitWidth as the other notations) gives a determined pair of bits or the field has no position; an integer element is read as a determined integer or refused. Which texts are read, and as what, is given by grammars that do not mention the conversion functions.", "quantifier": "every text (any length, any characters)", "why_tests_cant": "infinitely many texts, among them those that int() and prefix regular expressions accept unexpectedly", "anchors": ["src/svdsuite/process.py:_convert_enumerated_value", "src/svdsuite/process.py:_process_dim_index", "src/svdsuite/process.py:_process_field_msb_lsb", "src/svdsuite/parse.py:Parser._to_int"]}
{"id": "C60", "title": "Elements of the result are independent of each other", "statement": "Processing gives the same device, the same warnings and the same exception as if every element of the result were an object of its own: that the elements of arrays in arrays, or elements found in several places, are the same mutable object during processing, and are changed in place when sizes are computed and properties are inherited, has no visible effect.", "quantifier": "every description, every traversal order", "why_tests_cant": "aliasing effects depend on the order in which shared objects are changed, and on nesting of any depth", "anchors": ["src/svdsuite/resolve/resolver.py:Resolver._update_dim_node", "src/svdsuite/resolve/resolver.py:Resolver._finalize_processing", "src/svdsuite/process.py:_InheritProperties"]}
{"id": "C61", "title": "Warnings about dim attributes, bit positions and enumerated values are exactly those warranted", "statement": "If processing succeeds, it has warned of an ignored dim (with the name of the declaration), a reversed bitRange (with its text), a highest bit below the lowest (with the name of the field), a value called reserved, a repeated value name or number (with name and number) and a default value with a number, exactly where a declaration of the description, completed by what it is derived from, gives reason for it; nothing of this is reported without such a reason, and no declaration with a reason is passed over.", "quantifier": "every accepted description, every traversal order, every warning", "why_tests_cant": "both directions quantify over all declarations and all warnings; in an accepted description a declaration reached only by copying could be passed over", "anchors": ["src/svdsuite/process.py:_extract_and_process_dimension", "src/svdsuite/process.py:_process_field_msb_lsb", "src/svdsuite/process.py:_EnumeratedValueValidator", "src/svdsuite/resolve/resolver.py:Resolver._process_node", "src/svdsuite/resolve/resolver.py:Resolver._finalize_processing"]}
{"id": "C62", "title": "The order of declarations makes no difference", "statement": "Two descriptions without derivedFrom that differ only in the order in which peripherals, registers, clusters, fields and enumeratedValues are declared (at any depth) are either both accepted or both refused; if accepted, they give the same device and the same warnings. The order in which Python iterates over sets makes no difference either. With derivedFrom, too, two such descriptions that are both accepted give the same device and the same warnings, provided that no reference can be read in two ways.", "quantifier": "every pair of such descriptions (any size and nesting, any permutation at any level), every iteration order of sets", "why_tests_cant": "permutations of descriptions of any size; sorting with equal keys or lookups by name could let the order show through in rare cases only", "anchors": ["src/svdsuite/process.py:_ValidateAndFinalize", "src/svdsuite/resolve/resolver.py:Resolver._finalize_processing", "src/svdsuite/resolve/resolver.py:Resolver.resolve"]}
{"id": "C63", "title": "Processing is deterministic", "statement": "The processed device and the set of warnings are functions of the description alone: for descriptions with derivedFrom, dim arrays and lists and derived enumeratedValues too, the order in which Python iterates over sets (and so the numbering of copied elements and the order in which they are processed) makes no difference to them.", "quantifier": "every description whose references can be followed, in one way only; every pair of iteration orders", "why_tests_cant": "iteration orders cannot be enumerated for graphs of any size; a dependence on it would show only in runs with another hash seed or version", "anchors": ["src/svdsuite/resolve/resolver.py:Resolver.resolve", "src/svdsuite/resolve/resolver.py:Resolver._finalize_processing", "src/svdsuite/process.py:_ValidateAndFinalize"]}
{"id": "C64", "title": "Attributes without structure are carried through; moving the peripherals moves every address", "statement": "Descriptions of elements, version, groupName, prependToName, appendToName, headerStructName, headerEnumName, disableCondition, interrupt names, usage and protection of address blocks, reset values and masks, protection, dataType, modifiedWriteValues, writeConstraint and readAction influence nothing but themselves: rewriting them uniformly in the description (leaving the defaults alone) rewrites them in the processed device in the same way (through derivation, dim expansion and inheritance), with the same warnings or the same exception. Moving all base addresses by the same number of words moves every address of the processed device and of the peripheral map by the same distance and changes nothing else.", "quantifier": "every description (any size, with derivedFrom, dim and inheritance, valid or not), every rewriting function for each attribute, every distance divisible by 4, every iteration order of sets", "why_tests_cant": "rewriting functions and descriptions are unbounded; a test compares single attributes of single devices", "anchors": ["src/svdsuite/process.py:_process_peripheral", "src/svdsuite/process.py:_ValidateAndFinalize", "src/svdsuite/resolve/resolver.py:Resolver.resolve", "src/svdsuite/map.py:PeripheralRegisterMap"]}
{"id": "C65", "title": "Further peripherals change nothing about the others", "statement": "Adding peripherals to a description, in any place (derived from the ones that are there, or not), leaves the processed peripherals that were there as they are: each is in the new device with all it contains, equal in every attribute, in the same relative order; every warning about them is still given; and every other peripheral of the new device bears a name of one of the added peripherals or of its dim elements. (Condition: both descriptions are accepted and their references can be followed, in one way only.)", "quantifier": "every description whose references can be followed in one way only, every list of added peripherals, every position of the added ones and every order of the rest, every pair of iteration orders of sets", "why_tests_cant": "the peripherals that are added and where are unbounded; interference would come from node numbering, name lookup or processing order, which tests of single devices do not vary", "anchors": ["src/svdsuite/resolve/resolver.py:Resolver.resolve", "src/svdsuite/resolve/resolver.py:Resolver._finalize_processing", "src/svdsuite/process.py:_ValidateAndFinalize"]}
{"id": "C66", "title": "A dim element is an abbreviation", "statement": "Writing out the elements of a dim peripheral, cluster, register or field by hand (each with its name and display name filled in, its own address offset, base address or bits, and a copy of the content), for some or all of the dim elements, at any depth, changes nothing: the description is accepted exactly if the original is, and gives the same device, with the same warnings except those about how the bits of a field are written. (Condition: no derivedFrom; no marker is left in the filled names; for the acceptance: no negative sizes.)", "quantifier": "every description without derivedFrom, every choice of the dim elements that are written out (at any depth), every dimIndex form, every pair of iteration orders of sets", "why_tests_cant": "the nesting of dim elements and the numbers of copies are unbounded and the choice of the written out ones is exponential; a test compares one pair of descriptions", "anchors": ["src/svdsuite/resolve/resolver.py:Resolver.resolve", "src/svdsuite/resolve/resolver.py:Resolver._process_dimable_node", "src/svdsuite/process.py:process_dim", "src/svdsuite/process.py:_ValidateAndFinalize"]}
{"id": "C67", "title": "derivedFrom is an abbreviation", "statement": "Every accepted description can be written out without any derivedFrom: each peripheral, cluster, register and field is declared with the attributes it takes from the element it is derived from and with the content declared in its whole derivation chain, and each enumeratedValues with the values that count for it. The description written out in this way (in any order of the contents), if it is accepted as well, gives the same device, with the same warnings (apart from their order and number). (Condition: the references can be followed, in one way only.)", "quantifier": "every description whose references can be followed in one way only, with derivation chains of any length and nesting, every way of writing it out (order of the contents), every pair of iteration orders of sets", "why_tests_cant": "derivation chains, nesting and the order of the written out content are unbounded; a test compares one pair of descriptions", "anchors": ["src/svdsuite/resolve/resolver.py:Resolver.resolve", "src/svdsuite/resolve/resolver.py:Resolver._get_derived_from_base_node", "src/svdsuite/process.py:_process_peripheral", "src/svdsuite/process.py:_process_register", "src/svdsuite/process.py:_ValidateAndFinalize"]}
{"id": "C68", "title": "The resolver log changes nothing and tells what happened", "statement": "Asking for a resolver log does not change the result: the resolved peripherals, the warnings and the exception are the same with and without resolver_logging_file_path. Without a path no file is written; with a path a file is written in every case, also if the description is refused. The log of an accepted description is the sequence of headings, numbered drawings, followed derivedFrom paths and lists of elements of each round, in the order of the run; every declared element is listed for processing with its name (or 'no name') and kind, each under its own number, and none is listed twice. The log of a refused description tells in the same way everything up to the refusal: either a reference of the last round told cannot be followed, or one of the elements listed last cannot be processed, or the rounds are complete. The last drawing shows the final graph: no element in it is unprocessed (black), and if every reference can be followed no reference (red) and no derivation (green) is left in it.", "quantifier": "every description, accepted or refused, every number of rounds, every iteration order of sets, every drawing, compression and template function", "why_tests_cant": "the log is interleaved with the work of the resolver; a test looks at the log of one run, and cannot show that logging never changes a result", "anchors": ["src/svdsuite/resolve/logger.py:ResolverLogger", "src/svdsuite/util/html_generator.py:HTMLGenerator", "src/svdsuite/resolve/resolver.py:Resolver.resolve_peripherals", "src/svdsuite/resolve/resolver.py:Resolver._resolve_placeholder", "src/svdsuite/resolve/graph.py:ResolverGraph.get_svg"]}
{"id": "C69", "title": "The resolver is never stuck: LoopException is not raised", "statement": "Whatever the description (valid or not, with any derivedFrom, cyclic or dangling), processing never ends with the exception for processing the same elements repeatedly: an element that has been processed is never offered for processing again.", "quantifier": "every description, every number of rounds, every iteration order of sets", "why_tests_cant": "the check is dead code only if no history of rounds repeats its elements; tests can only fail to find such a history", "anchors": ["src/svdsuite/resolve/resolver.py:Resolver.resolve_peripherals", "src/svdsuite/resolve/resolver.py:Resolver._get_topological_sorted_processable_nodes", "src/svdsuite/process.py:Process"]}
{"id": "C70", "title": "Reading, writing and reading again", "statement": "Reading an SVD document, writing the device with the serializer and reading the written document gives the same device, and processing it gives the same device or the same exception, if no value in the document is blank (and no free text empty), the device has a peripheral and no field has half a position (bitOffset without bitWidth, lsb without msb, or the other way round); the device is the same exactly if there is no half position, otherwise exactly the half positions are lost. A device that has been rewritten once is not changed by further rewriting: the same document is written. (Half positions are meaningful in derived fields: after rewriting, such a device can be refused, or a field can silently lie elsewhere.)", "quantifier": "every document the parser accepts, every formatting of the written document", "why_tests_cant": "the set of documents is infinite and the property relates two different traversals; a test can compare a few files only", "anchors": ["src/svdsuite/parse.py:Parser", "src/svdsuite/serialize.py:Serializer", "src/svdsuite/serialize.py:SVDFieldSerializer", "src/svdsuite/process.py:_process_field_msb_lsb"]}
{"id": "C71", "title": "The structure of written documents", "statement": "The document the serializer writes for a device has the element structure of the newest shipped schema (which elements an element contains, in which order and how often) exactly when the device gives no more and no less than the schema asks for: at least one peripheral, dim and dimIncrement together and the other dim values only with them, exactly one of the three position notations for each field, exactly one kind of write constraint, exactly one of value and isDefault for each enumerated value, at most two enumeratedValues per field, not both alternateGroup and alternateRegister, and a description for each cluster.  For the conversion of a processed device this means: no enumerated value at all and a description for each cluster.  A document with this structure and with all values given has it again after reading and writing exactly when no field gives half a position (bitOffset without bitWidth)", "quantifier": "every device, and every processed device", "why_tests_cant": "there are infinitely many devices; a test validates a few written files against the schema", "anchors": ["src/svdsuite/serialize.py:Serializer", "src/svdsuite/util/process_parse_model_convert.py:process_parse_convert_device", "src/svdsuite/schema/1.3.11.xsd"]}
