# Formal model of ARMify-Project/SVDSuite in Lean 4

## Layout

* `lean/Verif/Model/*`  – executable model of `/repo/src/svdsuite`, one definition per Python function,
  each with a comment citing file:lines.
* `lean/Verif/Spec/*`   – small, model-independent specifications used by the theorem statements.
* `lean/Verif/Lemmas/*` – helper lemmas.
* `lean/Verif/Props/*`  – the property theorems (named `C01_…` …) with non-vacuity examples beside them.

## Modelling conventions

* `str` is `List Char` (`Str`).  ASCII is assumed for `lower`/`upper`/`isdigit`/`\d`/`\s` (see "not modelled").
* Python `int` is `Int`; `//` and `%` by positive numbers are `Int.ediv`/`Int.emod`.
* An exception is a value: `M α = Except Exn (α × List Warn)`.  `Exn` distinguishes the Python exception classes;
  `Warn` has one constructor per `warnings.warn` call site (arguments of the message kept, text not).
  Warnings issued before an exception are dropped (the caller sees them in Python; no property mentions them).
* `sorted`/`list.sort` is a structural stable insertion sort.  Comparison of strings is by code point.
* Lists of children are values.  `parent` and `parsed` back pointers are omitted (provenance only; no modelled
  function reads them, apart from `node.parsed`, which is modelled).
* Element objects are shared between nodes (instances of an array in an array, children that lie in several elements) and
  mutated in place (`_InheritProperties`, `_finalize_*`).  The main model treats them by value.  `Model/Heap.lean` has the
  same pipeline with explicit objects (`processDeviceH`); C60 says for which descriptions the two agree (proved), and that
  they do not for some that get stray copies (C53).  Theorems about `processDevice` are about the Python program where
  C60 applies: every description without `derivedFrom`, and every `Followable`, `Quiet`, `Unambiguous` one.
* Python `set` iteration order: in `_extend_enumerated_values_with_default` values are enumerated ascending (the result
  is sorted afterwards and keys are distinct, so the order is irrelevant); in `replicate_descendants` the order is a
  parameter (`ord`) of the model over which every theorem quantifies.
* `rustworkx.PyDiGraph(check_cycle=True)` is modelled from its documented behaviour: multigraph, `out_edges`/`in_edges`/
  `successors` newest edge first, `remove_edge`/`update_edge` act on the newest edge of the pair, node indices of
  removed nodes are reused last-in-first-out, `add_edge` refuses an edge that closes a directed cycle.
  This is part of the trusted base.
* The resolver `while True` loop and graph searches take fuel; running out is the distinct exception `outOfFuel`.
  Theorems about successful runs hold for every fuel.

* Specifications (`lean/Verif/Spec/*`) do not use the model's string functions: `Spec/Text.lean` has its own definitions of
  digits, letters, white space, decimal notation, lower case, trimming, marker replacement and the last name of a path
  (bridged to the model in `Lemmas/Text.lean`), and positions of fields (`BitsOf`), names of a path (`PathNames`), indices
  (`DimDenotes`) are relations.  What a claimed statement mentions of `Verif/Model` are the data types and the API functions
  it is about.

## Trusted base

* Lean's kernel; axioms at most `propext`, `Classical.choice`, `Quot.sound` (checked with `#print axioms` by vcheck).
* The reading of the Python source by the author (line citations), and the rustworkx/lxml/CPython behaviour listed here.
* Not modelled: graphviz in `get_svg` (its input is modelled) and the templates, SVG rewriting and compression of `util/html_generator.py` (opaque in C68), lxml itself (XML text <-> element tree; the
  model starts/ends at the element tree), XSD validation, `packaging.version` (modelled as numeric tuple comparison),
  file I/O, non-ASCII case mapping / digits, CPython's 4300 digit limit, `RecursionError`.

## Properties

| id | modelled | proof plan |
|----|----------|------------|
| C01 | `_convert_enumerated_value`, `_replace_x_combinations` | induction on the literal; spec `Matches` digit by digit |
| C02 | `_process_enumerated_values`, `_extend_…_default`, `_validate_and_finalize_enum_values` | validator invariant, then counting/sortedness; lifted to processed devices through the resolver's finalisation |
| C03 | same | validator keeps values distinct; sort; range filter |
| C04 | same | FALSE of the code (default-generated names can clash): witness of the negation, `_partial` for containers without default; `C04_exact`: iff characterisation of the clash |
| C05 | `_convert_enumerated_value`, Python `int()` | digits round trip lemmas; FALSE in full ("0b1_0", "0b-1", "0b 1" are read as numbers): witness + `_partial`; `C05_exact`: for every text, against the grammar `Spec/EnumLit.lean` |
| C06 | `_finalize_field_node`, `_validate_and_finalize_enum_value_containers` | case analysis |
| C07 | `_extract_and_process_dimension`, `_process_dim*`, `_process_*` | list length/index lemmas for one element; the labelled graph of C53 for the device (every element of the output is one of those a declaration stands for, and all of them are there) |
| C08 | `_process_dim_index` | regex model = prefix matchers; range lemmas; `C08_exact` for every text against `Spec/DimText.lean` |
| C09 | same | injectivity of decimal notation and of substitution |
| C10 | `_extract_and_process_dimension`, `process_dim` | case analysis |
| C11 | `_process_field_msb_lsb` | computation + decimal round trip; `C11_anywhere` (whole descriptions) is an instance of C64, whose changes may rewrite positions (`Spec/Notation.lean`) |
| C12–C14 | `_validate_and_finalize_fields` | loop invariant |
| C15 | `_process_peripheral/cluster/register/field` | computation |
| C16 | same, folded along a chain | induction over the chain |
| C17, C18 | `_InheritProperties`, `from_intermediate_*` | induction over trees |
| C19 | `_calculate_size`, `_get_parent_size_recursively` | the adjusted sizes of the resolved tree bound the children (`OkRC`), lifted through finalisation; equality unless something was ignored |
| C20 | same | the device's size is never read: two runs that differ in it only are compared step by step |
| C21–C29 | `_ValidateAndFinalize` | induction over trees, loop invariants |
| C30, C31 | `_compute_allowed_alternate_*` | closure by fuel + sufficiency; C31 FALSE (KeyError): witness, and `C31_exact`: the KeyError happens exactly when processing reaches a peripheral whose alternates cannot all be examined (`Spec/Dangling.lean`) |
| C32, C33 | `map.py` | induction; C33 FALSE for overlapping blocks: witness + `_partial`; `C33_end_exact` says what the end is without any hypothesis |
| C34 | `process_parse_model_convert.py` | induction over the processed tree |
| C35 | the same + whole pipeline | the converted device is derive-free, so `resolve_total` (acceptance) and `resolve_built` (C45) describe the resolver's result, from which finalisation gives back the device (`process_again`) |
| C36–C40 | `parse.py`, `serialize.py` over an element tree | round-trip lemmas per element kind |
| C41 | resolver graph | every derive edge of the final graph has a base of the right kind whose name is the last name of the reference (`states_inv`); a rank argument excludes circular references; full paths: the labelled graph of C53 |
| C42–C44 | resolver graph | invariants over resolver steps |
| C45 | whole resolver on derive-free input (with dim) | the graph of each round is described by the preorder list of declared elements (`Flat`, `Shape`, `Final`); the bottom-up traversal is then an induction (`FInv`); refinement to the recursive relation `Spec.DeviceBuilt` |
| C46 | the resolver, all rounds, against `Spec/Follow.lean` | FALSE in full: witnesses.  Positive part for `Followable` descriptions: an invariant of the labelled graph (`Fol`: shared children have processed parents, every unprocessed derived element has its placeholder or its base, bases can be processed in the round at hand) is kept by every step (`Lemmas/Fol*.lean`), so the base of each element of a round comes before it in the topological order and a round that changes nothing leaves nothing unprocessed |
| C48 | whole pipeline | FALSE in full: a witness for each exception that escapes; `_partial`: nothing else escapes, for every description (invariants of the graph: Lemmas/Held*, Escape*, WaitE, Few) |
| C47 | the resolver's main loop (everything else is structurally or provably bounded: `C47_only_main_loop`) | with the labels of C53: a processed node is replaced by nodes whose declarations lie inside its own, so if no declared cluster lies inside itself the multiset of the depths of the unprocessed nodes decreases in the Dershowitz–Manna order (`rounds_end`); FALSE in full: an invariant of the rounds of a device (`Spin`, Lemmas/Spin*.lean) that every round reproduces one level deeper |
| C49 | `_process_cpu` … | computation |
| C50 | `xml_parse.py` with the XML library as an oracle | case analysis over the attempt list |
| C51 | `validate.py` `get_latest` | finite table |
| C52 | `_EnumeratedValueValidator` | loop invariant; `C52_exact`/`C52_accepted`: the loop keeps exactly `Spec.keep` of the offered values, compared entry by entry with `Spec/Container.lean` |
| C59 | the four text conversions | grammars in `Spec/`, both directions |
| C60 | `Model/Heap.lean`: nodes refer to objects, `_update_dim_node` gives one object to several nodes, every assignment of the finalisation and of the inheritance changes the object | simulation: the nodes at the same place of the description with the same elements around them (`Lemmas/ShareClass.lean`) get the same size in both programs, whichever is finalised first (`Lemmas/Shared*.lean`); sharing only happens among such nodes (`Lemmas/Share*.lean`, an invariant of the rounds); FALSE in full: witness |
| C53 | the whole resolver (`initialization`, placeholders, `processNode`, replication of children, dim expansion, finalisation) against `Spec/Content.lean` and `Spec/Elements.lean`, which speak of positions in the description only | every node is labelled with the position of its declaration; an invariant (`Lab`) relates the children of each node to what is declared in its chain, and is kept by every step (`Lemmas/Lab*.lean`); the finalisation turns it into the described tree; with order and sizes (`Spec/Full.lean`): the invariant `FC` of the bottom-up traversal with the classes of C60 (`Lemmas/Full*.lean`) |
| C54, C55 | `inheritDevice` and all of `validateAndFinalize` (alignment, sizes, reserved names, fields, enumerated values, alternates, address blocks) against `Spec/Validate.lean`, a set of conditions on the resolved peripherals | induction over the register tree with the properties in force as parameter: result kept iff `Kept`, warnings iff `ElementWarning` somewhere in an examined scope, exceptions iff `ElementDefect`/`ScopeDefect` there; then the peripherals |
| C56 | the resolution of a description without `derivedFrom` (dim expansion, field positions, enumerated values, `resolvePeripherals`) against `Spec/Accept.lean` | each step is total under its condition; together with the totality of the graph rounds and of the finalisation (`resolve_total`) and C55. With `derivedFrom` (`Spec/Resolvable.lean`): invariants of the rounds say which nodes stand for one element (Kin, Neat), so that no step of a round fails (ResTotal), the final graph is tidy (Tidy) and the finalisation is total on it (FinGo, FinRun) |
| C57 | `parse.py` on an element tree against `Spec/Says.lean` (one relation per element kind of the format) and `Spec/Literal.lean` (integer literals) | each parser function succeeds with a value exactly if the relation holds (`Gives`), by composition; mutual induction for clusters |
| C58 | the warnings of `parse.py`, against `Spec/Remarks.lean` (tables of texts, attributes and parts per element kind) | `Notes m w P`: if `m` succeeds, it warns of `w` exactly if `P`; composed along the parser, mutual induction for clusters |
| C61 | the warnings of the resolution (dim, bit positions, enumerated values), the whole resolver, against `Spec/Notes.lean` | exact warnings of each step (`decl_notes`, `container_notes`), silence of the rest (`Lemmas/Hush.lean`), the invariant `Told` over the rounds together with the labels of C53, the traversal of the finalisation visits every field (`finalize_notes`), `Lemmas/ValQuiet.lean`: the validation gives other warnings |
| C62 | the whole of `process`, against `Spec/Reorder.lean` (the same description in another order) | the resolved elements of both descriptions by `C45` and uniqueness of `Spec/Build.lean` (`Lemmas/ReorderBuilt.lean`), then inheritance and validation in lockstep, sorting being canonical because names are distinct (`Lemmas/ReorderFin.lean`); warnings of the resolution by C61; with derivedFrom: a reordering is an isomorphism of the positions of declarations that respects everything `Spec/Full.lean` speaks about (`Lemmas/Embed.lean`, `Lemmas/EmbedReorder.lean`), then C53 in full and uniqueness of completions as for C63 |
| C63 | the whole of `process` with the iteration order of sets as a parameter | `Spec/Full.lean` describes the resolved device with sizes and order (`resolve_full`, C53); for `Definite` descriptions it determines it but for order and number of equal elements (`Lemmas/FullUnique.lean`), and validation makes the same of both (`Lemmas/FullSame.lean`) |
| C64 | the whole of `process` in both models and the map, against `Spec/Change.lean` (a change of the attributes without structure, on descriptions, devices and maps) | every function of the model commutes with the change (`Lemmas/Change*.lean`), composed along the monad (`M.bind_mapped`) |
| C65 | the whole of `process`, against `Spec/Extend.lean` (a description with further peripherals) | adding peripherals embeds the positions of declarations, references of old declarations are the same because the larger description is definite (`Lemmas/Embed.lean`), then completions are the same up to order (C53 in full, C63), and inheritance and validation act peripheral by peripheral (`Lemmas/ExtendFin.lean`) |
| C66 | the whole of `process`, against `Spec/Unroll.lean` (dim elements written out by hand) | the elements that a written out declaration stands for are the same heads one by one (`Lemmas/UnrollBuilt.lean`, over the characterisation C41 of what is built), so the finished devices are equal as in C62; buildability and remarks are transported along the copies (`Props/Unroll.lean`) |
| C67 | the whole of `process`, against `Spec/Inline.lean` (every `derivedFrom` written out) | the positions of the two descriptions are in bisimulation (`Unfolds` in `Lemmas/Inline.lean`, built from the relation in `Lemmas/InlineTree.lean`): completed declarations are retold, chains correspond, so what is meant by the content (C53, `Spec/Full.lean`) is transported and the finished devices are equal as in C63; that it can be written out follows from the content of the resolved device (`Props/Inline.lean`) |
| C68 | `ResolverLogger`, `HTMLGenerator` and the resolver with its calls of the logger (`Model/Log.lean`: a state monad over the log around the functions of `Model/Resolver.lean`) | forgetting the log is a homomorphism onto the resolver without log (`sees_*`); the calls of the generator add entries (`Spec/Log.lean`), so the run of the rounds is compared with `Rounds` by induction; completeness of the lists with the labels of C53 |
| C69 | the resolver's main loop | invariant over the rounds: processed elements stay processed, the elements of a round are processed after it, and only unprocessed ones are offered (`rounds_no_loop`) |
| C70 | parser, serializer | what the parser reads (`Spec/Says.lean`, C57) meets the conditions of the round trip (C36) once half positions are removed; the serializer does not write these anyway (`serDevice_whole`) |
| C71 | serializer, conversion | content models of 1.3.11.xsd as a relation on tags (`Spec/Schema.lean`). One direction: each part of the written element matches its part of the model. Other direction: functions on content models (a tag that must occur, two tags that never occur together, a tag that only comes with another, a bound on the count), proved sound by induction on the relation, then each condition from the membership of tags. Documents read and written again: the same functions on the document read, with `Spec/Says.lean` (C57) giving which values are present |

The findings (properties false of the code) are listed in the section "Findings" below as they are proved.

## Findings

What reading the code for the proofs brought up.  Each is a theorem about a concrete device (or literal, ...), so
it is a fact about the model; where the finding contradicts a property as a user would state it the property is claimed
`partial` only, with the theorem that does hold.

* **C04** – a default entry named `D` that fills holes generates `D_1`, ...; an explicit value may have that name
  already, and the result has two values of one name: `C04_names_can_clash`.
* **C05** – `0b1_0`, `0b-1`, `0b 1` and the like are read as numbers because `int(_, 2)` accepts them:
  `C05_odd_literals_accepted`.
* **C08** – malformed ranges such as `3-` or `-` in dimIndex do not raise ProcessException but ValueError/TypeError:
  `C08_malformed_ranges`.
* **C14** – a field outside of its register is not reported if its peripheral is dropped: `C14_dropped_peripheral_witness`.
* **C20** – the `size` of the device is documented to be inherited; the code uses the constant 32:
  `C20_device_size_ignored`.  Along the same lines, a register without size takes the *effective* (largest child) size
  of the enclosing cluster/peripheral, not the declared one.
* **C31** – a dangling alternatePeripheral/alternateCluster ends in a bare KeyError (`C31_key_error`), a dangling
  alternateRegister is accepted in silence (`C31_dangling_register_accepted`).
* **C33** – `allocated_range` takes the end of the *last* block, which is not the largest end if blocks are nested:
  `C33_nested_blocks`.
* **C35** – reprocessing a processed device may fail or change it: names that contain `%s` after expansion
  (`Sample.C35_marker`), sizes that were enlarged by an element that was dropped (`Sample.C35_ignored`), a name clash
  (`Sample.C35_clash`), no peripheral (`Sample.C35_empty`).
* **C36** – what does not survive write-then-read: fields with an incomplete position, strings with blanks at the ends,
  empty texts, no peripherals (`Sample.C36_*`).
* **C37** – `0x#1` is read as 177 and `1_0` as 10: `C37_odd_literals`.
* **C39** – for group elements (as opposed to value elements) the *first* duplicate wins, and some missing
  values raise TypeError: `Sample.C39_first_wins_for_groups`, `Sample.C39_type_error`.
* **C40** – a value of blanks only is not the same as an empty one: `C40_blank_only`.
* **C44** – for registers the choice among several candidates is made by set iteration order:
  `C44_arbitrary_choice`.
* **C46** – a two-step chain through a dim element always fails (`C46_through_dim`), the declaration order can decide
  whether a device is accepted (`C46_order_matters`), and a chain of enumeratedValues can lose its values without any
  warning (`C46_enum_values_lost`).  A register `S` derived from `R`, which has a field derived from another of its fields, is fine if
  `R` is declared first; otherwise processing fails with AttributeError (`C46_derived_in_base`: `replicate_descendants` copies the derive
  edge of the field twice, and one of them stays and is taken for a parent–child edge by the finalisation).
* **C47** – for a description in which a cluster contains, through derivation, itself the main loop may never end: `C47_endless`
  (`P{M{Z from K{K from P.M}} K from P.M Z from K{K from P.M}}` needs more rounds than any number, in every order of copying);
  `C47_ends_partial` shows that a cluster inside itself is the only way.
* **C48** – seven `ResolveException`s, ValueError, AttributeError, KeyError, TypeError escape from `Process`: `C48_undocumented`. Among them descriptions without error: copies of an element that is derived keep a second derive edge which is never removed (`derivedContainer`, `derivedFromTemplate`).
* **C53** – a cluster derived from a later declared cluster gets, inside one of its children, a copy of that child's sibling derived
  from it (`C53_stray`: `V.A` contains a `B` that is declared nowhere in `A`); declared in the other order the result is right.
  A cluster that would contain itself (`W{J from X}`, `X from W`) is accepted and cut off at some depth without warning (`C53_endless`).
* **C60** – a stray copy (C53) is the same object as the regular one, and attributes inherited in one place show in the other:
  `C60_visible` (`V.B` becomes readOnly because it is also found in the readOnly cluster `V.X`).
* Smaller ones, met in proofs: a write-once field that overlaps a read-only one is rejected although no two are readable or writable together; a
  derived field without position of its own raises although the base has one; the displayName of all instances of an
  element derived from a dim template carries index 0; negative sizes are only noticed by an internal check.
* **C55** – a cluster or peripheral all of whose registers have a size that is no multiple of 8 gets the size 0, and the whole device
  is refused ("Unsupported register size: 0 bytes") instead of the registers being ignored with a warning (`C55_size_zero`).
* **C70** – The serializer writes `bitOffset`/`bitWidth` and `lsb`/`msb` only in pairs.  A derived field may give one of them and inherit the
  other, so a document that is read, written and read again can be refused (`C70_refused`) or have a field elsewhere (`C70_moved`).
* **C68** – `log_finalize` is never called: the log file appears only when the resolver is garbage collected (`__del__`).  The log says "Repeating
  steps finished successfully" also if elements are left over and the description is refused (`C68_refused_sample`).  Names and paths are
  inserted without HTML escaping, and the text `SVG_PAN_ZOOM_INSTANCES` in a name disappears from the log.
* **C69** – the loop detection of the resolver (LoopException, "Loop detected") is dead code.
* **C71** – The conversion of a processed device gives every enumerated value both `value` and `isDefault` (`false`), which the schema's
  choice forbids: as soon as one field has an enumerated value, the document written for the processed device does not conform to the schema
  shipped with the package (`C71_enumerated_value`), even if the document read did (`C71_not_kept`).
  A document in which a field gives `bitOffset` without `bitWidth`, which the schema allows, loses the structure when it is read and
  written again: the field is written without a position (`C71_offset_only`; it is the only way to lose it, `C71_reread`).
