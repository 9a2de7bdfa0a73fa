{"file": "Elem", "line": 45, "old": "  { size := orIfNone p.size (b.bind (\u00b7.size))", "new": "  { size := orIfNone p.size (b.bind (\u00b7.resetMask))", "res": "killed", "err": "Verif/Lemmas/MadeInv.lean:regFrom_step", "t": 15}
{"file": "Parse", "line": 280, "old": "  let mwv \u2190 optText (s%\"modifiedWriteValues\") e", "new": "  let mwv \u2190 optText (s%\"XodifiedWriteValues\") e", "res": "killed", "err": "Verif/Lemmas/RoundTrip.lean:parseField_rt", "t": 13}
{"file": "Enum", "line": 20, "old": "  (product01 (s.filter (\u00b7 == 'x')).length).map (replaceXWith s)", "new": "  (product01 (s.filter (\u00b7 != 'x')).length).map (replaceXWith s)", "res": "killed", "err": "Verif/Lemmas/EnumLit.lean:replaceX_exps", "t": 3}
{"file": "Dim", "line": 44, "old": "    | _ => false", "new": "    | _ => true", "res": "killed", "err": "Verif/Props/Dim.lean:dimIndexList_denotes", "t": 26}
{"file": "Py", "line": 145, "old": "    | _ => digits 10 s", "new": "    | _ => digits 11 s", "res": "killed", "err": "Verif/Lemmas/Digits.lean:unsignedInt_natStr0", "t": 7}
{"file": "Resolver", "line": 460, "old": "  | .clu c => .clu { c with props := { c.props with size := some s } }", "new": "  | .clu c => .clu { c with props := { c.props with resetMask := some s } }", "res": "killed", "err": "Verif/Lemmas/OriginInv.lean:madeS_clu", "t": 17}
{"file": "Parse", "line": 136, "old": "  let size \u2190 optInt (s%\"size\") e", "new": "  let size \u2190 optInt (s%\"resetMask\") e", "res": "killed", "err": "Verif/Lemmas/RoundTrip.lean:parseProps_rt", "t": 14}
{"file": "Enum", "line": 65, "old": "                   isDefault := p.isDefault.getD false })", "new": "                   isDefault := p.isDefault.getD true })", "res": "killed", "err": "Verif/Lemmas/EnumVal.lean:resolveOne_some", "t": 8}
{"file": "Finalize", "line": 134, "old": "def lastAddr : RC \u2192 Int | .reg r => r.baseAddress + r.props.size / 8 - 1 | .clu c _ => c.endAddress", "new": "def lastAddr : RC \u2192 Int | .reg r => r.baseAddress + r.props.size / 8 | .clu c _ => c.endAddress", "res": "killed", "err": "Verif/Lemmas/Overlap.lean:lastAddress_eq", "t": 17}
{"file": "Inherit", "line": 38, "old": "  { size := some p.size, access := some p.access, protection := some p.protection", "new": "  { size := some p.resetMask, access := some p.access, protection := some p.protection", "res": "killed", "err": "Verif/Props/Sizes.lean:C20_device_size_ignored", "t": 37}
{"file": "Parse", "line": 351, "old": "  let name \u2190 reqText (s%\"name\") e", "new": "  let name \u2190 reqText (s%\"Xame\") e", "res": "killed", "err": "Verif/Lemmas/RoundTrip.lean:parsePeripheral_rt", "t": 20}
{"file": "Parse", "line": 276, "old": "  let lsb \u2190 optInt (s%\"lsb\") e", "new": "  let lsb \u2190 optInt (s%\"msb\") e", "res": "killed", "err": "Verif/Lemmas/RoundTrip.lean:parseField_rt", "t": 19}
{"file": "Parse", "line": 332, "old": "        let hdr \u2190 optText (s%\"headerStructName\") e", "new": "        let hdr \u2190 optText (s%\"XeaderStructName\") e", "res": "killed", "err": "Verif/Lemmas/RoundTrip.lean:parseRC_rt", "t": 18}
{"file": "Serialize", "line": 197, "old": "      [leaf (s%\"baseAddress\") (hexStr p.hd.baseAddress)] ++", "new": "      [leaf (s%\"XaseAddress\") (hexStr p.hd.baseAddress)] ++", "res": "killed", "err": "Verif/Lemmas/RoundTrip.lean:parsePeripheral_rt", "t": 16}
{"file": "Proc", "line": 89, "old": "  dim : Option Int := none", "new": "  dim : Option Int := (some default)", "res": "killed", "err": "Verif/Lemmas/AgainTree.lean:field_conv", "t": 107}
{"file": "Resolver", "line": 302, "old": "        | none => M.pure (none, none)", "new": "        | none => M.pure ((some default), none)", "res": "killed", "err": "Verif/Lemmas/InvRun.lean:processNode_cases", "t": 9}
{"file": "Elem", "line": 128, "old": "      | ']' :: _ => if a.isEmpty || b.isEmpty then none else some (a, b)", "new": "      | ']' :: _ => if a.isEmpty || b.isEmpty then some (a, b) else none", "res": "killed", "err": "Verif/Props/Fields.lean:bitRange_match", "t": 22}
{"file": "Serialize", "line": 141, "old": "  if fs.isEmpty then [] else [.mk (s%\"fields\") none [] (fs.map serField)]", "new": "  if fs.isEmpty then [] else [.mk (s%\"fields\") (some default) [] (fs.map serField)]", "res": "survived", "err": "", "t": 64}
{"file": "Serialize", "line": 224, "old": "        optLeaf (s%\"headerDefinitionsPrefix\") id d.hd.headerDefinitionsPrefix ++", "new": "        optLeaf (s%\"XeaderDefinitionsPrefix\") id d.hd.headerDefinitionsPrefix ++", "res": "killed", "err": "Verif/Lemmas/RoundTrip.lean:parseDevice_rt", "t": 10}
{"file": "Parse", "line": 175, "old": "    let fpuDp \u2190 optBool (s%\"fpuDP\") e", "new": "    let fpuDp \u2190 optBool (s%\"XpuDP\") e", "res": "killed", "err": "Verif/Lemmas/RoundTrip.lean:parseCpu_rt", "t": 12}
{"file": "Serialize", "line": 71, "old": "  .mk (s%\"dimArrayIndex\") (if d.headerEnumName.isNone && d.values.isEmpty then some [] else none) []", "new": "  .mk (s%\"dimArrayIndex\") (if d.headerEnumName.isNone && d.values.isEmpty then some [] else (some default)) []", "res": "survived", "err": "", "t": 65}
{"file": "Serialize", "line": 33, "old": "    [leaf (s%\"base\") (hexStr r.base), leaf (s%\"limit\") (hexStr r.limit), leaf (s%\"access\") r.access.val]", "new": "    [leaf (s%\"base\") (hexStr r.base), leaf (s%\"limit\") (hexStr r.limit), leaf (s%\"protection\") r.access.val]", "res": "killed", "err": "Verif/Lemmas/RoundTrip.lean:parseSauRegion_rt", "t": 11}
{"file": "Graph", "line": 117, "old": "      if S1.contains e.src && !S1.contains e.dst then closure es (e.dst :: S1) else S1", "new": "      if S1.contains e.src || !S1.contains e.dst then closure es (e.dst :: S1) else S1", "res": "killed", "err": "Verif/Lemmas/Acyclic.lean:mem_closure", "t": 11}
{"file": "Finalize", "line": 37, "old": "      { name := f.hd.name, description := f.hd.description, lsb := f.hd.lsb, msb := f.hd.msb", "new": "      { name := f.hd.name, description := f.hd.description, lsb := f.hd.lsb, msb := f.hd.lsb", "res": "killed", "err": "Verif/Lemmas/FinField.lean:finalizeField_ok", "t": 12}
{"file": "Serialize", "line": 108, "old": "  optLeaf (s%\"dim\") intStr d.dim ++ optLeaf (s%\"dimIncrement\") intStr d.dimIncrement ++", "new": "  optLeaf (s%\"dimIncrement\") intStr d.dim ++ optLeaf (s%\"dimIncrement\") intStr d.dimIncrement ++", "res": "killed", "err": "Verif/Lemmas/RoundTrip.lean:parseDim_rt", "t": 10}
{"file": "Parse", "line": 403, "old": "  let series \u2190 optText (s%\"series\") e", "new": "  let series \u2190 optText (s%\"Xeries\") e", "res": "killed", "err": "Verif/Lemmas/RoundTrip.lean:parseDevice_rt", "t": 12}
{"file": "Finalize", "line": 72, "old": "      M.bind (M.warnIf (decide (f.msb \u2265 regSize)) (.fieldExceeds f.name f.msb regSize)) fun _ =>", "new": "      M.bind (M.warnIf (decide (f.msb > regSize)) (.fieldExceeds f.name f.msb regSize)) fun _ =>", "res": "killed", "err": "Verif/Lemmas/FinField.lean:checkFields_cons", "t": 12}
{"file": "Graph", "line": 341, "old": "      M.bind (addChildToGraph g parent \u27e8some c.name, .cluster, false, .clu c, none, false\u27e9) fun (g1, i) =>", "new": "      M.bind (addChildToGraph g parent \u27e8some c.name, .cluster, true, .clu c, none, false\u27e9) fun (g1, i) =>", "res": "killed", "err": "Verif/Lemmas/Made.lean:inv_constrRC", "t": 8}
{"file": "Convert", "line": 48, "old": "  { size := some p.size, access := some p.access, protection := some p.protection,", "new": "  { size := some p.resetMask, access := some p.access, protection := some p.protection,", "res": "killed", "err": "Verif/Props/Convert.lean:sameProps", "t": 1}
{"file": "Inherit", "line": 13, "old": "    resetValue := orIfNone own.resetValue encl.resetValue", "new": "    resetValue := orIfNone own.resetMask encl.resetValue", "res": "killed", "err": "Verif/Lemmas/OriginInv.lean:isProp_resetValue", "t": 11}
{"file": "Resolver", "line": 262, "old": "    else updateNode ord g i baseNode x false", "new": "    else updateNode ord g i baseNode x true", "res": "killed", "err": "Verif/Lemmas/InvRun.lean:processDimable_ok", "t": 7}
{"file": "Serialize", "line": 130, "old": "      serPair (s%\"bitOffset\") (s%\"bitWidth\") f.bitOffset f.bitWidth ++", "new": "      serPair (s%\"XitOffset\") (s%\"bitWidth\") f.bitOffset f.bitWidth ++", "res": "killed", "err": "Verif/Lemmas/RoundTrip.lean:parseField_rt", "t": 11}
{"file": "Load", "line": 65, "old": "  [[1, 0], [1, 1], [1, 2], [1, 3, 1], [1, 3, 2], [1, 3, 3], [1, 3, 4], [1, 3, 5], [1, 3, 6], [1, 3, 7], [1, 3, 8],", "new": "  [[1, 1], [1, 1], [1, 2], [1, 3, 1], [1, 3, 2], [1, 3, 3], [1, 3, 4], [1, 3, 5], [1, 3, 6], [1, 3, 7], [1, 3, 8],", "res": "survived", "err": "", "t": 28}
{"file": "Graph", "line": 172, "old": "  | p :: _ => (g.successors p).filter fun c => g.isElem c && c != i", "new": "  | p :: _ => (g.successors p).dropWhile fun c => g.isElem c && c != i", "res": "killed", "err": "Verif/Lemmas/Lab.lean:refers_of", "t": 19}
{"file": "Finalize", "line": 207, "old": "      M.bind (M.warnIf (decide (offset % al \u2260 0)) (.regClusterUnaligned name)) fun _ => M.pure (some s)", "new": "      M.bind (M.warnIf (decide (offset % al = 0)) (.regClusterUnaligned name)) fun _ => M.pure (some s)", "res": "killed", "err": "Verif/Lemmas/ValRC.lean:checkSizeAlign_eq", "t": 50}
{"file": "Parse", "line": 137, "old": "  let access \u2190 optText (s%\"access\") e", "new": "  let access \u2190 optText (s%\"protection\") e", "res": "killed", "err": "Verif/Lemmas/RoundTrip.lean:parseProps_rt", "t": 15}
{"file": "Serialize", "line": 108, "old": "  optLeaf (s%\"dim\") intStr d.dim ++ optLeaf (s%\"dimIncrement\") intStr d.dimIncrement ++", "new": "  optLeaf (s%\"Xim\") intStr d.dim ++ optLeaf (s%\"dimIncrement\") intStr d.dimIncrement ++", "res": "killed", "err": "Verif/Lemmas/RoundTrip.lean:parseDim_rt", "t": 12}
{"file": "Elem", "line": 146, "old": "  let bitOffset := orIfNone p.bitOffset (base.map (\u00b7.lsb))", "new": "  let bitOffset := orIfNone p.bitOffset (base.map (\u00b7.msb))", "res": "killed", "err": "Verif/Props/Derive.lean:C15_field", "t": 29}
{"file": "Parse", "line": 303, "old": "  let altReg \u2190 optText (s%\"alternateRegister\") e", "new": "  let altReg \u2190 optText (s%\"XlternateRegister\") e", "res": "killed", "err": "Verif/Lemmas/RoundTrip.lean:parseRegister_rt", "t": 14}
{"file": "Load", "line": 58, "old": "  | a :: as, b :: bs => if a < b then true else if b < a then false else tupleLe as bs", "new": "  | a :: as, b :: bs => if a < b then false else if b < a then false else tupleLe as bs", "res": "killed", "err": "Verif/Props/Misc.lean:tupleLe_spec", "t": 5}
{"file": "Finalize", "line": 319, "old": "            peripheralSizeEffective := endEff - b + 1", "new": "            peripheralSizeEffective := endEff - b - 1", "res": "killed", "err": "Verif/Lemmas/Fin.lean:finalizePeripheral_ok", "t": 5}
{"file": "Parse", "line": 302, "old": "  let altGroup \u2190 optText (s%\"alternateGroup\") e", "new": "  let altGroup \u2190 optText (s%\"XlternateGroup\") e", "res": "killed", "err": "Verif/Lemmas/RoundTrip.lean:parseRegister_rt", "t": 14}
{"file": "Graph", "line": 205, "old": "  | e :: es => if e.src == a && e.dst == b then { e with ty := ty } :: es else e :: retypeEdge a b ty es", "new": "  | e :: es => if e.src == a || e.dst == b then { e with ty := ty } :: es else e :: retypeEdge a b ty es", "res": "killed", "err": "Verif/Lemmas/WF.lean:retypeEdge_mem", "t": 8}
{"file": "Finalize", "line": 174, "old": "          if (lookup.lookup n).bind id \u2260 some name then [Warn.overlap isReg name n] else []", "new": "          if (lookup.lookup n).bind id = some name then [Warn.overlap isReg name n] else []", "res": "killed", "err": "Verif/Lemmas/Overlap.lean:overlapWarns_mem", "t": 18}
{"file": "Py", "line": 42, "old": "  c == '_' || isDigitC c || isUpperC c || (97 \u2264 c.toNat && c.toNat \u2264 122)", "new": "  c == '_' || isDigitC c || isUpperC c || (97 < c.toNat && c.toNat \u2264 122)", "res": "survived", "err": "", "t": 122}
{"file": "Parse", "line": 350, "old": "  let derived \u2190 optAttr (s%\"derivedFrom\") e", "new": "  let derived \u2190 optAttr (s%\"XerivedFrom\") e", "res": "killed", "err": "Verif/Lemmas/RoundTrip.lean:parsePeripheral_rt", "t": 18}
{"file": "Finalize", "line": 358, "old": "      M.bind (allowedAlternates lookup true p.alternatePeripheral) fun allowed =>", "new": "      M.bind (allowedAlternates lookup false p.alternatePeripheral) fun allowed =>", "res": "killed", "err": "Verif/Lemmas/POverlap.lean:checkPeriphOverlaps_mem", "t": 37}
{"file": "Finalize", "line": 83, "old": "  let sorted := sortBy (fun a b : Field => decide (a.lsb \u2264 b.lsb)) gs", "new": "  let sorted := sortBy (fun a b : Field => decide (a.lsb \u2264 b.msb)) gs", "res": "killed", "err": "Verif/Lemmas/FinField.lean:finalizeFields_ok", "t": 21}
{"file": "Parse", "line": 182, "old": "    let nvic \u2190 reqInt (s%\"nvicPrioBits\") e", "new": "    let nvic \u2190 reqInt (s%\"XvicPrioBits\") e", "res": "killed", "err": "Verif/Lemmas/RoundTrip.lean:parseCpu_rt", "t": 17}
{"file": "Parse", "line": 376, "old": "  | some e => M.mapM parsePeripheral (e.findall (s%\"peripheral\"))", "new": "  | some e => M.mapM parsePeripheral (e.findall (s%\"Xeripheral\"))", "res": "killed", "err": "Verif/Lemmas/RoundTrip.lean:parseDevice_rt", "t": 13}
{"file": "Elem", "line": 26, "old": "    icachePresent := c.icachePresent.getD false", "new": "    icachePresent := c.icachePresent.getD true", "res": "killed", "err": "Verif/Props/Misc.lean:cpuOf", "t": 27}
{"file": "Elem", "line": 23, "old": "    fpuPresent := c.fpuPresent.getD false", "new": "    fpuPresent := c.fpuPresent.getD true", "res": "killed", "err": "Verif/Props/Misc.lean:cpuOf", "t": 24}
{"file": "Parse", "line": 170, "old": "    let name \u2190 M.bind (reqText (s%\"name\") e) CPUName.fromStr", "new": "    let name \u2190 M.bind (reqText (s%\"Xame\") e) CPUName.fromStr", "res": "killed", "err": "Verif/Lemmas/RoundTrip.lean:parseCpu_rt", "t": 13}
{"file": "Parse", "line": 352, "old": "  let version \u2190 optText (s%\"version\") e", "new": "  let version \u2190 optText (s%\"Xersion\") e", "res": "killed", "err": "Verif/Lemmas/RoundTrip.lean:parsePeripheral_rt", "t": 13}
{"file": "Parse", "line": 276, "old": "  let lsb \u2190 optInt (s%\"lsb\") e", "new": "  let lsb \u2190 optInt (s%\"Xsb\") e", "res": "killed", "err": "Verif/Lemmas/RoundTrip.lean:parseField_rt", "t": 14}
{"file": "Serialize", "line": 223, "old": "        optLeaf (s%\"headerSystemFilename\") id d.hd.headerSystemFilename ++", "new": "        optLeaf (s%\"XeaderSystemFilename\") id d.hd.headerSystemFilename ++", "res": "killed", "err": "Verif/Lemmas/RoundTrip.lean:parseDevice_rt", "t": 12}
{"file": "Py", "line": 35, "old": "def isDigitC (c : Char) : Bool := 48 \u2264 c.toNat && c.toNat \u2264 57", "new": "def isDigitC (c : Char) : Bool := 48 \u2264 c.toNat || c.toNat \u2264 57", "res": "killed", "err": "Verif/Lemmas/EnumConv.lean:isDec_iff", "t": 19}
{"file": "Elem", "line": 149, "old": "  let msb := orIfNone p.msb (base.map (\u00b7.msb))", "new": "  let msb := orIfNone p.msb (base.map (\u00b7.lsb))", "res": "killed", "err": "Verif/Props/Derive.lean:C15_field", "t": 32}
{"file": "Graph", "line": 228, "old": "  let es := g.edges.filter fun e => e.ty != .derive", "new": "  let es := g.edges.filter fun e => e.ty == .derive", "res": "killed", "err": "Verif/Lemmas/Rep.lean:replicateDescendants_rep", "t": 34}
{"file": "Finalize", "line": 189, "old": "          M.bind (allowedAlternates cl true c.alternateCluster) fun allowed =>", "new": "          M.bind (allowedAlternates cl false c.alternateCluster) fun allowed =>", "res": "killed", "err": "Verif/Lemmas/Overlap.lean:checkRCOverlaps_mem", "t": 26}
{"file": "Finalize", "line": 37, "old": "      { name := f.hd.name, description := f.hd.description, lsb := f.hd.lsb, msb := f.hd.msb", "new": "      { name := f.hd.name, description := f.hd.description, lsb := f.hd.msb, msb := f.hd.msb", "res": "killed", "err": "Verif/Lemmas/FinField.lean:finalizeField_ok", "t": 14}
{"file": "Parse", "line": 91, "old": "    else M.bind (M.warnIf (decide (t \u2260 strip t)) (.stripped name)) fun _ => M.pure (some (strip t))", "new": "    else M.bind (M.warnIf (decide (t = strip t)) (.stripped name)) fun _ => M.pure (some (strip t))", "res": "killed", "err": "Verif/Lemmas/RoundTrip.lean:elementText_one", "t": 14}
{"file": "Graph", "line": 333, "old": "      M.bind (addChildToGraph g parent \u27e8some f.name, .field, false, .field f, none, false\u27e9) fun (g1, i) =>", "new": "      M.bind (addChildToGraph g parent \u27e8some f.name, .field, false, .field f, none, true\u27e9) fun (g1, i) =>", "res": "killed", "err": "Verif/Lemmas/Flat.lean:constrFields_eq", "t": 19}
{"file": "Finalize", "line": 134, "old": "def lastAddr : RC \u2192 Int | .reg r => r.baseAddress + r.props.size / 8 - 1 | .clu c _ => c.endAddress", "new": "def lastAddr : RC \u2192 Int | .reg r => r.baseAddress + r.props.size / 16 - 1 | .clu c _ => c.endAddress", "res": "killed", "err": "Verif/Lemmas/Overlap.lean:lastAddress_eq", "t": 26}
{"file": "Enum", "line": 158, "old": "def inFieldRange (v w : Int) : Bool := !(v < 0) && (0 \u2264 w && v \u2264 2 ^ w.toNat - 1)", "new": "def inFieldRange (v w : Int) : Bool := !(v < 0) && (0 \u2264 w && v \u2264 2 ^ w.toNat + 1)", "res": "killed", "err": "Verif/Lemmas/EnumVal.lean:inFieldRange_iff", "t": 8}
{"file": "Graph", "line": 179, "old": "    edges := g.edges.filter fun e => e.src != i && e.dst != i }", "new": "    edges := g.edges.filter fun e => e.src != i || e.dst != i }", "res": "killed", "err": "Verif/Lemmas/WF.lean:removePlaceholder_wf", "t": 8}
{"file": "Serialize", "line": 101, "old": "    (if c.name.isNone && c.headerEnumName.isNone && c.usage.isNone && c.values.isEmpty then some [] else none)", "new": "    (if c.name.isNone && c.headerEnumName.isNone && c.usage.isNone && c.values.isEmpty then some [] else (some default))", "res": "survived", "err": "", "t": 72}
{"file": "Serialize", "line": 115, "old": "  optLeaf (s%\"protection\") Protection.val p.protection ++ optLeaf (s%\"resetValue\") hexStr p.resetValue ++", "new": "  optLeaf (s%\"Xrotection\") Protection.val p.protection ++ optLeaf (s%\"resetValue\") hexStr p.resetValue ++", "res": "killed", "err": "Verif/Lemmas/RoundTrip.lean:parseProps_rt", "t": 16}
{"file": "Serialize", "line": 33, "old": "    [leaf (s%\"base\") (hexStr r.base), leaf (s%\"limit\") (hexStr r.limit), leaf (s%\"access\") r.access.val]", "new": "    [leaf (s%\"Xase\") (hexStr r.base), leaf (s%\"limit\") (hexStr r.limit), leaf (s%\"access\") r.access.val]", "res": "killed", "err": "Verif/Lemmas/RoundTrip.lean:parseSauRegion_rt", "t": 15}
{"file": "Finalize", "line": 18, "old": "  else if b = 8 then M.pure 4", "new": "  else if b = 8 then M.pure 5", "res": "killed", "err": "Verif/Lemmas/Fin.lean:getAlignment_ok", "t": 5}
{"file": "Serialize", "line": 44, "old": "  .mk (s%\"cpu\") none []", "new": "  .mk (s%\"cpu\") (some default) []", "res": "survived", "err": "", "t": 71}
{"file": "Elem", "line": 30, "old": "    vtorPresent := c.vtorPresent.getD true", "new": "    vtorPresent := c.vtorPresent.getD false", "res": "killed", "err": "Verif/Props/Misc.lean:cpuOf", "t": 38}
{"file": "Py", "line": 109, "old": "        | some d => if d < base then digitsGo base (acc * base + d) false cs else none", "new": "        | some d => if d < base then digitsGo base (acc * base - d) false cs else none", "res": "killed", "err": "Verif/Lemmas/Digits.lean:digitsGo_digitChar", "t": 9}
{"file": "Graph", "line": 179, "old": "    edges := g.edges.filter fun e => e.src != i && e.dst != i }", "new": "    edges := g.edges.filter fun e => e.src == i && e.dst != i }", "res": "killed", "err": "Verif/Lemmas/WF.lean:removePlaceholder_wf", "t": 8}
{"file": "Resolver", "line": 213, "old": "                                      isDimTemplate := e.isDimTemplate || isTemplate }", "new": "                                      isDimTemplate := e.isDimTemplate && isTemplate }", "res": "killed", "err": "Verif/Lemmas/Nodes.lean:updateNode_ok", "t": 4}
{"file": "Finalize", "line": 319, "old": "            peripheralSizeEffective := endEff - b + 1", "new": "            peripheralSizeEffective := endEff - b + 2", "res": "killed", "err": "Verif/Lemmas/Fin.lean:finalizePeripheral_ok", "t": 7}
{"file": "Resolver", "line": 86, "old": "    M.bind (searchNodes g derived level parts (g.elementChildren 0)) fun m2 =>", "new": "    M.bind (searchNodes g derived level parts (g.elementChildren 1)) fun m2 =>", "res": "killed", "err": "Verif/Lemmas/Lookup.lean:pathResolving_ok", "t": 5}
{"file": "Serialize", "line": 236, "old": "        attrs (rereadAll fmt (depth + 1) children)", "new": "        attrs (rereadAll fmt (depth + 2) children)", "res": "killed", "err": "Verif/Lemmas/RoundTrip.lean:reread_children", "t": 17}
{"file": "Enum", "line": 133, "old": "    let uncovered := (fieldValues (msb - lsb + 1).toNat).filter (fun v => !covered.contains v)", "new": "    let uncovered := (fieldValues (msb - msb + 1).toNat).filter (fun v => !covered.contains v)", "res": "killed", "err": "Verif/Lemmas/EnumCore.lean:extendDefault_spec", "t": 18}
{"file": "Enum", "line": 181, "old": "      M.bind (finalizeEnumValues c.values lsb msb) fun vs =>", "new": "      M.bind (finalizeEnumValues c.values msb msb) fun vs =>", "res": "killed", "err": "Verif/Lemmas/FinField.lean:proc_container", "t": 42}
{"file": "Serialize", "line": 189, "old": "      optLeaf (s%\"version\") id p.hd.version ++", "new": "      optLeaf (s%\"Xersion\") id p.hd.version ++", "res": "killed", "err": "Verif/Lemmas/RoundTrip.lean:parsePeripheral_rt", "t": 15}
{"file": "Elem", "line": 147, "old": "  let bitWidth := orIfNone p.bitWidth (base.map (fun b => b.msb - b.lsb + 1))", "new": "  let bitWidth := orIfNone p.bitWidth (base.map (fun b => b.msb + b.lsb + 1))", "res": "killed", "err": "Verif/Props/Derive.lean:C15_field", "t": 35}
{"file": "Enum", "line": 53, "old": "  | none => false", "new": "  | none => true", "res": "survived", "err": "", "t": 108}
{"file": "Serialize", "line": 116, "old": "  optLeaf (s%\"resetMask\") hexStr p.resetMask", "new": "  optLeaf (s%\"XesetMask\") hexStr p.resetMask", "res": "killed", "err": "Verif/Lemmas/RoundTrip.lean:parseProps_rt", "t": 14}
{"file": "Elem", "line": 157, "old": "    if p.lsb.isSome || p.msb.isSome then", "new": "    if p.lsb.isSome || p.lsb.isSome then", "res": "killed", "err": "Verif/Props/Derive.lean:C15_field", "t": 29}
{"file": "Finalize", "line": 307, "old": "        let endSpec := maxList (b + ab.offset + ab.size - 1) (abs.map fun a => b + a.offset + a.size - 1)", "new": "        let endSpec := maxList (b + ab.offset + ab.size - 1) (abs.map fun a => b + a.offset + a.size)", "res": "killed", "err": "Verif/Lemmas/Fin.lean:finalizePeripheral_ok", "t": 5}
{"file": "Proc", "line": 141, "old": "  dim : IDim", "new": "  dimIncrement : IDim", "res": "invalid", "err": "Verif/Model/Elem.lean:processRegister", "t": 11}
{"file": "Load", "line": 66, "old": "   [1, 3, 9], [1, 3, 10], [1, 3, 11]]", "new": "   [1, 3, 9], [2, 3, 10], [1, 3, 11]]", "res": "survived", "err": "", "t": 34}
{"file": "Serialize", "line": 101, "old": "    (if c.name.isNone && c.headerEnumName.isNone && c.usage.isNone && c.values.isEmpty then some [] else none)", "new": "    (if c.name.isNone && c.headerEnumName.isNone && c.usage.isNone || c.values.isEmpty then some [] else none)", "res": "survived", "err": "", "t": 68}
{"file": "Parse", "line": 225, "old": "  let size \u2190 reqInt (s%\"size\") e", "new": "  let size \u2190 reqInt (s%\"Xize\") e", "res": "killed", "err": "Verif/Lemmas/RoundTrip.lean:parseAddressBlock_rt", "t": 12}
{"file": "Parse", "line": 254, "old": "        let mn \u2190 reqInt (s%\"minimum\") r", "new": "        let mn \u2190 reqInt (s%\"Xinimum\") r", "res": "killed", "err": "Verif/Lemmas/RoundTrip.lean:parseWriteConstraint_rt", "t": 14}
{"file": "Serialize", "line": 182, "old": "  if rcs.isEmpty then [] else [.mk (s%\"registers\") none [] (serRCs rcs)]", "new": "  if rcs.isEmpty then [] else [.mk (s%\"Xegisters\") none [] (serRCs rcs)]", "res": "killed", "err": "Verif/Lemmas/RoundTrip.lean:sel_serRegisters_ne", "t": 13}
{"file": "Graph", "line": 296, "old": "      let cands := rem.filter fun n => !g.edges.any fun e => e.dst == n && rem.contains e.src", "new": "      let cands := rem.filter fun n => g.edges.any fun e => e.dst == n && rem.contains e.src", "res": "killed", "err": "Verif/Lemmas/FlatOrder.lean:topoGo_range", "t": 17}
{"file": "Serialize", "line": 114, "old": "  optLeaf (s%\"size\") intStr p.size ++ optLeaf (s%\"access\") Access.val p.access ++", "new": "  optLeaf (s%\"resetMask\") intStr p.size ++ optLeaf (s%\"access\") Access.val p.access ++", "res": "killed", "err": "Verif/Lemmas/RoundTrip.lean:parseProps_rt", "t": 12}
{"file": "Enum", "line": 130, "old": "  if msb - lsb + 1 < 0 then M.throw .typeError", "new": "  if msb - lsb < 0 then M.throw .typeError", "res": "survived", "err": "", "t": 99}
{"file": "Parse", "line": 356, "old": "  let prep \u2190 optText (s%\"prependToName\") e", "new": "  let prep \u2190 optText (s%\"XrependToName\") e", "res": "killed", "err": "Verif/Lemmas/RoundTrip.lean:parsePeripheral_rt", "t": 15}
{"file": "Finalize", "line": 203, "old": "    if s % 8 \u2260 0 then M.bind (M.warn (.regClusterBadSize name)) fun _ => M.pure none", "new": "    if s % 8 \u2260 0 then M.bind (M.warn (.regClusterBadSize name)) fun _ => M.pure (some default)", "res": "killed", "err": "Verif/Lemmas/Fin.lean:checkSizeAlign_ok", "t": 4}
{"file": "Parse", "line": 97, "old": "  | [] => if optional then M.pure none else M.throw .parser", "new": "  | [] => if optional then M.pure (some default) else M.throw .parser", "res": "killed", "err": "Verif/Lemmas/RoundTrip.lean:elementText_none", "t": 14}
{"file": "Serialize", "line": 108, "old": "  optLeaf (s%\"dim\") intStr d.dim ++ optLeaf (s%\"dimIncrement\") intStr d.dimIncrement ++", "new": "  optLeaf (s%\"dim\") intStr d.dimIncrement ++ optLeaf (s%\"dimIncrement\") intStr d.dimIncrement ++", "res": "killed", "err": "Verif/Lemmas/RoundTrip.lean:parseDim_rt", "t": 13}
{"file": "Py", "line": 23, "old": "  if 65 \u2264 c.toNat \u2227 c.toNat \u2264 90 then Char.ofNat (c.toNat + 32) else c", "new": "  if 65 < c.toNat \u2227 c.toNat \u2264 90 then Char.ofNat (c.toNat + 32) else c", "res": "killed", "err": "Verif/Lemmas/EnumVal.lean:lower_idem", "t": 21}
{"file": "Resolver", "line": 449, "old": "    | none => M.bind (parentSize g (g.nodes.length + 1) i) fun s => M.pure (some s)", "new": "    | none => M.bind (parentSize g (g.nodes.length) i) fun s => M.pure (some s)", "res": "killed", "err": "Verif/Lemmas/ResolveSat.lean:rsat_childSize", "t": 8}
{"file": "Parse", "line": 156, "old": "  match cpu.find (s%\"sauRegionsConfig\") with", "new": "  match cpu.find (s%\"XauRegionsConfig\") with", "res": "killed", "err": "Verif/Lemmas/RoundTrip.lean:parseSauConfig_rt", "t": 16}
{"file": "Parse", "line": 358, "old": "  let hdr \u2190 optText (s%\"headerStructName\") e", "new": "  let hdr \u2190 optText (s%\"description\") e", "res": "killed", "err": "Verif/Lemmas/RoundTrip.lean:parsePeripheral_rt", "t": 14}
{"file": "Serialize", "line": 114, "old": "  optLeaf (s%\"size\") intStr p.size ++ optLeaf (s%\"access\") Access.val p.access ++", "new": "  optLeaf (s%\"size\") intStr p.size ++ optLeaf (s%\"protection\") Access.val p.access ++", "res": "killed", "err": "Verif/Lemmas/RoundTrip.lean:parseProps_rt", "t": 15}
{"file": "Finalize", "line": 307, "old": "        let endSpec := maxList (b + ab.offset + ab.size - 1) (abs.map fun a => b + a.offset + a.size - 1)", "new": "        let endSpec := maxList (b + ab.offset + ab.size) (abs.map fun a => b + a.offset + a.size - 1)", "res": "killed", "err": "Verif/Lemmas/Fin.lean:finalizePeripheral_ok", "t": 5}
{"file": "Py", "line": 137, "old": "    | '0' :: 'b' :: t => digitsAfterPrefix 2 t", "new": "    | '1' :: 'b' :: t => digitsAfterPrefix 2 t", "res": "killed", "err": "Verif/Lemmas/Digits.lean:unsignedInt_natStr0", "t": 8}
{"file": "Py", "line": 123, "old": "  if base = 16 then", "new": "  if base \u2260 16 then", "res": "killed", "err": "Verif/Lemmas/Digits.lean:unsignedInt_natStr10", "t": 7}
{"file": "Graph", "line": 271, "old": "  addEdges g2 (((g2.outEdges src).filter fun e => sel.contains e.dst).map fun e =>", "new": "  addEdges g2 (((g2.outEdges src).dropWhile fun e => sel.contains e.dst).map fun e =>", "res": "killed", "err": "Verif/Lemmas/WF.lean:replicateDescendants_wf", "t": 7}
{"file": "Py", "line": 225, "old": "  | [] => 0", "new": "  | [] => 1", "res": "killed", "err": "Verif/Lemmas/Inherit.lean:ScopeFrom.path", "t": 44}
{"file": "Graph", "line": 56, "old": "  isDimTemplate : Bool := false", "new": "  isDimTemplate : Bool := true", "res": "survived", "err": "", "t": 61}
{"file": "Dim", "line": 138, "old": "        M.bind (M.warn (.dimWithoutMarker name)) fun _ => M.pure none", "new": "        M.bind (M.pure ()) fun _ => M.pure none", "res": "killed", "err": "Verif/Lemmas/DimInv.lean:extractDim_ok", "t": 12}
{"file": "Dim", "line": 132, "old": "  let dim := orIfNone pd.dim (bd.bind (\u00b7.dim))", "new": "  let dim := orIfNone pd.dimIncrement (bd.bind (\u00b7.dim))", "res": "killed", "err": "Verif/Lemmas/DimInv.lean:extractDim_ok", "t": 11}
{"file": "Serialize", "line": 71, "old": "  .mk (s%\"dimArrayIndex\") (if d.headerEnumName.isNone && d.values.isEmpty then some [] else none) []", "new": "  .mk (s%\"dimArrayIndex\") (if d.headerEnumName.isSome && d.values.isEmpty then some [] else none) []", "res": "survived", "err": "", "t": 66}
{"file": "Parse", "line": 151, "old": "  let access \u2190 M.bind (reqText (s%\"access\") e) (fromVal SauAccess.all SauAccess.val)", "new": "  let access \u2190 M.bind (reqText (s%\"Xccess\") e) (fromVal SauAccess.all SauAccess.val)", "res": "killed", "err": "Verif/Lemmas/RoundTrip.lean:parseSauRegion_rt", "t": 12}
{"file": "Enum", "line": 43, "old": "    M.ofOption ((pyInt 10 s).map (fun v => [v])) (.process .enumValueError)", "new": "    M.ofOption ((pyInt 11 s).map (fun v => [v])) (.process .enumValueError)", "res": "killed", "err": "Verif/Lemmas/EnumConv.lean:convert_dec", "t": 9}
{"file": "Enum", "line": 146, "old": "    | some d => extendDefault evs d lsb msb", "new": "    | some d => extendDefault evs d lsb lsb", "res": "killed", "err": "Verif/Lemmas/EnumCore.lean:processEnumValues_spec", "t": 9}
{"file": "Elem", "line": 138, "old": "    match pyInt 10 a, pyInt 10 b with", "new": "    match pyInt 10 a, pyInt 11 b with", "res": "killed", "err": "Verif/Props/Fields.lean:bitRangePos_text", "t": 17}
{"file": "Dim", "line": 27, "old": "  !ds.isEmpty && match s.drop ds.length with", "new": "  !ds.isEmpty || match s.drop ds.length with", "res": "killed", "err": "Verif/Props/Dim.lean:word_not_ranges", "t": 24}
{"file": "Resolver", "line": 520, "old": "      bottomUp g0 f (q ++ new) done1 s1", "new": "      bottomUp g0 f (q) done1 s1", "res": "killed", "err": "Verif/Lemmas/Traverse.lean:bottomUp_cons", "t": 15}
{"file": "Parse", "line": 177, "old": "    let icache \u2190 optBool (s%\"icachePresent\") e", "new": "    let icache \u2190 optBool (s%\"XcachePresent\") e", "res": "killed", "err": "Verif/Lemmas/RoundTrip.lean:parseCpu_rt", "t": 12}
{"file": "Dim", "line": 34, "old": "  | a :: '-' :: b :: _ => isUpperC a && isUpperC b", "new": "  | a :: '-' :: b :: _ => isUpperC a || isUpperC b", "res": "killed", "err": "Verif/Props/Dim.lean:rangeLike_of", "t": 35}
{"file": "Serialize", "line": 168, "old": "          optLeaf (s%\"description\") id c.description ++", "new": "          optLeaf (s%\"displayName\") id c.description ++", "res": "killed", "err": "Verif/Lemmas/RoundTrip.lean:parseRC_rt", "t": 12}
{"file": "Dim", "line": 87, "old": "    if Int.ofNat l.length = dim then M.pure l else M.throw (.process .dimIndexCount)", "new": "    if Int.ofNat l.length \u2260 dim then M.pure l else M.throw (.process .dimIndexCount)", "res": "killed", "err": "Verif/Lemmas/DimInv.lean:processDimIndex_ok", "t": 11}
{"file": "Parse", "line": 202, "old": "def parseEnumValues (e : XElem) : M (List SEnumValue) := M.mapM parseEnumValue (e.findall (s%\"enumeratedValue\"))", "new": "def parseEnumValues (e : XElem) : M (List SEnumValue) := M.mapM parseEnumValue (e.findall (s%\"XnumeratedValue\"))", "res": "killed", "err": "Verif/Lemmas/RoundTrip.lean:parseEnumValues_rt", "t": 13}
{"file": "Serialize", "line": 170, "old": "          optLeaf (s%\"headerStructName\") id c.headerStructName ++", "new": "          optLeaf (s%\"XeaderStructName\") id c.headerStructName ++", "res": "killed", "err": "Verif/Lemmas/RoundTrip.lean:parseRC_rt", "t": 11}
{"file": "Resolver", "line": 305, "old": "          if eb.processed.isNone && !e.parsed.isEnum then M.throw (.resolve 472)", "new": "          if eb.processed.isNone || !e.parsed.isEnum then M.throw (.resolve 472)", "res": "survived", "err": "", "t": 46}
{"file": "Finalize", "line": 170, "old": "      (if base \u2264 e then", "new": "      (if base < e then", "res": "killed", "err": "Verif/Lemmas/Overlap.lean:overlapWarns_mem", "t": 13}
{"file": "Parse", "line": 380, "old": "  let key : Str := if (d.nsmap.lookup (s%\"xs\")).isSome then s%\"xs\" else s%\"xsi\"", "new": "  let key : Str := if (d.nsmap.lookup (s%\"xs\")).isSome then s%\"xs\" else s%\"Xsi\"", "res": "survived", "err": "", "t": 63}
{"file": "Py", "line": 109, "old": "        | some d => if d < base then digitsGo base (acc * base + d) false cs else none", "new": "        | some d => if d \u2264 base then digitsGo base (acc * base + d) false cs else none", "res": "killed", "err": "Verif/Lemmas/Digits.lean:digitsGo_digitChar", "t": 7}
{"file": "Parse", "line": 143, "old": "  M.pure { size := size, access := access, protection := protection, resetValue := resetValue, resetMask := resetMask }", "new": "  M.pure { size := resetMask, access := access, protection := protection, resetValue := resetValue, resetMask := resetMask }", "res": "killed", "err": "Verif/Lemmas/RoundTrip.lean:parseProps_rt", "t": 13}
{"file": "Enum", "line": 58, "old": "  if lower p.name = s%\"reserved\" then", "new": "  if lower p.name \u2260 s%\"reserved\" then", "res": "killed", "err": "Verif/Lemmas/EnumVal.lean:resolveOne_some", "t": 5}
{"file": "Finalize", "line": 308, "old": "        let endEff := maxList (b + y.addressOffset + y.extent - 1)", "new": "        let endEff := maxList (b - y.addressOffset + y.extent - 1)", "res": "killed", "err": "Verif/Lemmas/Fin.lean:finalizePeripheral_ok", "t": 3}
{"file": "Finalize", "line": 299, "old": "    if (match p.hd.props.size with | some s => decide (s % 8 \u2260 0) | none => false) then", "new": "    if (match p.hd.props.size with | some s => decide (s % 8 \u2260 0) | none => true) then", "res": "killed", "err": "Verif/Lemmas/Fin.lean:finalizePeripheral_ok", "t": 4}
{"file": "Finalize", "line": 127, "old": "def size : RC \u2192 Int | .reg r => r.props.size | .clu c _ => c.props.size", "new": "def resetMask : RC \u2192 Int | .reg r => r.props.size | .clu c _ => c.props.size", "res": "killed", "err": "Verif/Spec/Again.lean:None", "t": 2}
{"file": "Parse", "line": 48, "old": "  | none => match pyInt 10 w with", "new": "  | none => match pyInt 11 w with", "res": "killed", "err": "Verif/Lemmas/XmlInt.lean:toInt_eq", "t": 7}
{"file": "Finalize", "line": 203, "old": "    if s % 8 \u2260 0 then M.bind (M.warn (.regClusterBadSize name)) fun _ => M.pure none", "new": "    if s % 8 = 0 then M.bind (M.warn (.regClusterBadSize name)) fun _ => M.pure none", "res": "killed", "err": "Verif/Lemmas/Fin.lean:checkSizeAlign_ok", "t": 4}
{"file": "Resolver", "line": 485, "old": "    else if conts.length > 2 then M.throw .enumContainer", "new": "    else if conts.length \u2265 2 then M.throw .enumContainer", "res": "killed", "err": "Verif/Lemmas/FinTotal.lean:visit_total", "t": 40}
{"file": "Parse", "line": 308, "old": "  let ra \u2190 optText (s%\"readAction\") e", "new": "  let ra \u2190 optText (s%\"XeadAction\") e", "res": "killed", "err": "Verif/Lemmas/RoundTrip.lean:parseRegister_rt", "t": 12}
{"file": "Serialize", "line": 114, "old": "  optLeaf (s%\"size\") intStr p.size ++ optLeaf (s%\"access\") Access.val p.access ++", "new": "  optLeaf (s%\"size\") intStr p.resetMask ++ optLeaf (s%\"access\") Access.val p.access ++", "res": "killed", "err": "Verif/Lemmas/RoundTrip.lean:parseProps_rt", "t": 10}
{"file": "Parse", "line": 410, "old": "  let aub \u2190 reqInt (s%\"addressUnitBits\") e", "new": "  let aub \u2190 reqInt (s%\"XddressUnitBits\") e", "res": "killed", "err": "Verif/Lemmas/RoundTrip.lean:parseDevice_rt", "t": 10}
{"file": "Finalize", "line": 241, "old": "        | [] => M.bind (M.warn (.clusterEmpty c.name)) fun _ => M.pure none", "new": "        | [] => M.bind (M.pure ()) fun _ => M.pure none", "res": "killed", "err": "Verif/Lemmas/Fin.lean:finalizeRC_clu", "t": 3}
{"file": "Elem", "line": 19, "old": "  { name := if c.name = .CM0_PLUS then .CM0PLUS else c.name", "new": "  { name := if c.name = .CM0_PLUS then c.name else .CM0PLUS", "res": "killed", "err": "Verif/Props/Misc.lean:cpuOf", "t": 22}
{"file": "Serialize", "line": 33, "old": "    [leaf (s%\"base\") (hexStr r.base), leaf (s%\"limit\") (hexStr r.limit), leaf (s%\"access\") r.access.val]", "new": "    [leaf (s%\"base\") (hexStr r.base), leaf (s%\"Ximit\") (hexStr r.limit), leaf (s%\"access\") r.access.val]", "res": "killed", "err": "Verif/Lemmas/RoundTrip.lean:parseSauRegion_rt", "t": 10}
{"file": "Serialize", "line": 88, "old": "  .mk (s%\"range\") none [] [leaf (s%\"minimum\") (intStr r.1), leaf (s%\"maximum\") (intStr r.2)]", "new": "  .mk (s%\"range\") none [] [leaf (s%\"minimum\") (intStr r.1), leaf (s%\"Xaximum\") (intStr r.2)]", "res": "killed", "err": "Verif/Lemmas/RoundTrip.lean:parseWriteConstraint_rt", "t": 10}
{"file": "Graph", "line": 231, "old": "  (rangeFrom 0 g.nodes.length).filter fun i => cl.contains i", "new": "  (rangeFrom 1 g.nodes.length).filter fun i => cl.contains i", "res": "killed", "err": "Verif/Lemmas/LabAdopt.lean:mem_descendants", "t": 28}
{"file": "Dim", "line": 85, "old": "  if dim < 1 then M.throw (.process .dimLtOne)", "new": "  if dim \u2264 1 then M.throw (.process .dimLtOne)", "res": "killed", "err": "Verif/Lemmas/DimInv.lean:processDimIndex_ok", "t": 8}
{"file": "Resolver", "line": 189, "old": "      M.bind (createAll p base (i + 1) ns ds) fun xs => M.pure (x :: xs)", "new": "      M.bind (createAll p base (i - 1) ns ds) fun xs => M.pure (x :: xs)", "res": "killed", "err": "Verif/Lemmas/InvRun.lean:createAll_ok", "t": 8}
{"file": "Serialize", "line": 77, "old": "    ([leaf (s%\"offset\") (hexStr b.offset), leaf (s%\"size\") (hexStr b.size), leaf (s%\"usage\") b.usage.val] ++", "new": "    ([leaf (s%\"offset\") (hexStr b.offset), leaf (s%\"size\") (hexStr b.size), leaf (s%\"Xsage\") b.usage.val] ++", "res": "killed", "err": "Verif/Lemmas/RoundTrip.lean:parseAddressBlock_rt", "t": 11}
{"file": "Graph", "line": 258, "old": "      M.bind (addEdges g (((g.outEdges i).filter fun e => sel.contains e.dst).map", "new": "      M.bind (addEdges g (((g.outEdges i).dropWhile fun e => sel.contains e.dst).map", "res": "killed", "err": "Verif/Lemmas/WF.lean:replicateEdges_wf", "t": 5}
{"file": "Enum", "line": 158, "old": "def inFieldRange (v w : Int) : Bool := !(v < 0) && (0 \u2264 w && v \u2264 2 ^ w.toNat - 1)", "new": "def inFieldRange (v w : Int) : Bool := !(v \u2264 0) && (0 \u2264 w && v \u2264 2 ^ w.toNat - 1)", "res": "killed", "err": "Verif/Lemmas/EnumVal.lean:inFieldRange_iff", "t": 3}
{"file": "Parse", "line": 331, "old": "        let altCluster \u2190 optText (s%\"alternateCluster\") e", "new": "        let altCluster \u2190 optText (s%\"XlternateCluster\") e", "res": "killed", "err": "Verif/Lemmas/RoundTrip.lean:parseRC_rt", "t": 13}
{"file": "Inherit", "line": 10, "old": "  { size := orIfNone own.size encl.size", "new": "  { size := orIfNone own.resetMask encl.size", "res": "killed", "err": "Verif/Lemmas/OriginInv.lean:origin_rc", "t": 13}
{"file": "Dim", "line": 87, "old": "    if Int.ofNat l.length = dim then M.pure l else M.throw (.process .dimIndexCount)", "new": "    if Int.ofNat l.length = dim then M.throw (.process .dimIndexCount) else M.pure l", "res": "killed", "err": "Verif/Lemmas/DimInv.lean:processDimIndex_ok", "t": 11}
{"file": "Graph", "line": 117, "old": "      if S1.contains e.src && !S1.contains e.dst then closure es (e.dst :: S1) else S1", "new": "      if S1.contains e.src && !S1.contains e.dst then S1 else closure es (e.dst :: S1)", "res": "killed", "err": "Verif/Lemmas/Acyclic.lean:mem_closure", "t": 13}
{"file": "Py", "line": 109, "old": "        | some d => if d < base then digitsGo base (acc * base + d) false cs else none", "new": "        | some d => if d < base then digitsGo base (acc * base + d) true cs else none", "res": "killed", "err": "Verif/Lemmas/Digits.lean:digitsGo_digitChar", "t": 8}
{"file": "Enum", "line": 152, "old": "  M.bind (processEnumValues p.values lsb msb) fun vs =>", "new": "  M.bind (processEnumValues p.values lsb lsb) fun vs =>", "res": "killed", "err": "Verif/Lemmas/FinField.lean:proc_container", "t": 23}
{"file": "Pipeline", "line": 24, "old": "    resetValue := p.resetValue.getD 0", "new": "    resetValue := p.resetMask.getD 0", "res": "killed", "err": "Verif/Lemmas/OriginInv.lean:props4D_device", "t": 11}
{"file": "Serialize", "line": 131, "old": "      serPair (s%\"lsb\") (s%\"msb\") f.lsb f.msb ++", "new": "      serPair (s%\"msb\") (s%\"msb\") f.lsb f.msb ++", "res": "killed", "err": "Verif/Lemmas/RoundTrip.lean:parseField_rt", "t": 13}
{"file": "Parse", "line": 90, "old": "    if !doStrip then M.pure (some t)", "new": "    if doStrip then M.pure (some t)", "res": "killed", "err": "Verif/Lemmas/RoundTrip.lean:elementText_one", "t": 13}
{"file": "Finalize", "line": 298, "old": "    M.bind (M.warnIf (decide (p.hd.baseAddress % 4 \u2260 0)) (.peripheralUnaligned p.hd.name)) fun _ =>", "new": "    M.bind (M.warnIf (decide (p.hd.baseAddress % 4 \u2260 1)) (.peripheralUnaligned p.hd.name)) fun _ =>", "res": "killed", "err": "Verif/Lemmas/AgainDev.lean:periph_lift", "t": 45}
{"file": "Enum", "line": 158, "old": "def inFieldRange (v w : Int) : Bool := !(v < 0) && (0 \u2264 w && v \u2264 2 ^ w.toNat - 1)", "new": "def inFieldRange (v w : Int) : Bool := !(v < 1) && (0 \u2264 w && v \u2264 2 ^ w.toNat - 1)", "res": "killed", "err": "Verif/Lemmas/EnumVal.lean:inFieldRange_iff", "t": 4}
{"file": "Load", "line": 66, "old": "   [1, 3, 9], [1, 3, 10], [1, 3, 11]]", "new": "   [2, 3, 9], [1, 3, 10], [1, 3, 11]]", "res": "killed", "err": "Verif/Props/Misc.lean:C51_shipped", "t": 2}
{"file": "Serialize", "line": 63, "old": "  .mk (s%\"enumeratedValue\") none []", "new": "  .mk (s%\"XnumeratedValue\") none []", "res": "killed", "err": "Verif/Lemmas/RoundTrip.lean:parseDimArrayIndex_rt", "t": 11}
{"file": "Elem", "line": 153, "old": "      | some o, some w => some (o + w - 1, o)", "new": "      | some o, some w => some (o - w - 1, o)", "res": "killed", "err": "Verif/Props/Dim.lean:bits_iff", "t": 21}
{"file": "Elem", "line": 130, "old": "    | _ => none", "new": "    | _ => (some default)", "res": "killed", "err": "Verif/Props/Dim.lean:bitRange_match_inv", "t": 23}
{"file": "Py", "line": 109, "old": "        | some d => if d < base then digitsGo base (acc * base + d) false cs else none", "new": "        | some d => if d < base then none else digitsGo base (acc * base + d) false cs", "res": "killed", "err": "Verif/Lemmas/Digits.lean:digitsGo_digitChar", "t": 8}
{"file": "Parse", "line": 282, "old": "  let ra \u2190 optText (s%\"readAction\") e", "new": "  let ra \u2190 optText (s%\"XeadAction\") e", "res": "killed", "err": "Verif/Lemmas/RoundTrip.lean:parseField_rt", "t": 15}
{"file": "Parse", "line": 38, "old": "  else if lower v = s%\"false\" then M.pure false", "new": "  else if lower v = s%\"true\" then M.pure false", "res": "killed", "err": "Verif/Lemmas/RoundTrip.lean:toBool_boolStr", "t": 14}
{"file": "Elem", "line": 147, "old": "  let bitWidth := orIfNone p.bitWidth (base.map (fun b => b.msb - b.lsb + 1))", "new": "  let bitWidth := orIfNone p.bitWidth (base.map (fun b => b.lsb - b.lsb + 1))", "res": "killed", "err": "Verif/Props/Dim.lean:bits_iff", "t": 24}
{"file": "Serialize", "line": 67, "old": "      optLeaf (s%\"isDefault\") boolStr v.isDefault)", "new": "      optLeaf (s%\"XsDefault\") boolStr v.isDefault)", "res": "killed", "err": "Verif/Lemmas/RoundTrip.lean:parseEnumValue_rt", "t": 11}
{"file": "Resolver", "line": 164, "old": "  | .periph p => extractDim .peripheral p.name p.dim none bd none", "new": "  | .periph p => extractDim .peripheral p.name p.dim (some default) bd none", "res": "survived", "err": "", "t": 52}
{"file": "Py", "line": 126, "old": "    | '0' :: 'X' :: t => digitsAfterPrefix 16 t", "new": "    | '1' :: 'X' :: t => digitsAfterPrefix 16 t", "res": "survived", "err": "", "t": 97}
{"file": "Parse", "line": 402, "old": "  let name \u2190 reqText (s%\"name\") e", "new": "  let name \u2190 reqText (s%\"Xame\") e", "res": "killed", "err": "Verif/Lemmas/RoundTrip.lean:parseDevice_rt", "t": 11}
{"file": "Graph", "line": 199, "old": "  if g.edges.any (fun e => e.src == a && e.dst == b) then M.pure { g with edges := eraseEdge a b g.edges }", "new": "  if g.edges.any (fun e => e.src == a || e.dst == b) then M.pure { g with edges := eraseEdge a b g.edges }", "res": "killed", "err": "Verif/Lemmas/Nodes.lean:removeEdge_ok", "t": 4}
{"file": "Dim", "line": 99, "old": "    let idx := (rangeFrom 0 dim.toNat).map natStr", "new": "    let idx := (rangeFrom 1 dim.toNat).map natStr", "res": "killed", "err": "Verif/Lemmas/DimInv.lean:processDim_some", "t": 10}
{"file": "Enum", "line": 158, "old": "def inFieldRange (v w : Int) : Bool := !(v < 0) && (0 \u2264 w && v \u2264 2 ^ w.toNat - 1)", "new": "def inFieldRange (v w : Int) : Bool := !(v < 0) && (0 < w && v \u2264 2 ^ w.toNat - 1)", "res": "killed", "err": "Verif/Lemmas/EnumVal.lean:inFieldRange_iff", "t": 4}
{"file": "Parse", "line": 40, "old": "  else if v = s%\"0\" then M.pure false", "new": "  else if v \u2260 s%\"0\" then M.pure false", "res": "killed", "err": "Verif/Props/Xml.lean:C38_bool", "t": 76}
{"file": "Enum", "line": 124, "old": "def fieldValues (w : Nat) : List Int := (rangeFrom 0 (2 ^ w)).map Int.ofNat", "new": "def fieldValues (w : Nat) : List Int := (rangeFrom 1 (2 ^ w)).map Int.ofNat", "res": "killed", "err": "Verif/Lemmas/EnumVal.lean:mem_fieldValues", "t": 6}
{"file": "Parse", "line": 234, "old": "  | .err .parser => M.bind (M.warn (.interruptNoValue name)) fun _ => M.pure 0", "new": "  | .err .parser => M.bind (M.pure ()) fun _ => M.pure 0", "res": "survived", "err": "", "t": 61}
{"file": "Dim", "line": 140, "old": "    if dim'.isNone && dispHas lstMark display then", "new": "    if dim'.isNone || dispHas lstMark display then", "res": "killed", "err": "Verif/Lemmas/DimInv.lean:extractDim_ok", "t": 11}
{"file": "Serialize", "line": 93, "old": "    (if c.writeAsRead.isNone && c.useEnumeratedValues.isNone && c.range.isNone then some [] else none) []", "new": "    (if c.writeAsRead.isNone && c.useEnumeratedValues.isNone || c.range.isNone then some [] else none) []", "res": "survived", "err": "", "t": 77}
{"file": "Py", "line": 27, "old": "  if 97 \u2264 c.toNat \u2227 c.toNat \u2264 122 then Char.ofNat (c.toNat - 32) else c", "new": "  if 97 \u2264 c.toNat \u2227 c.toNat \u2264 122 then Char.ofNat (c.toNat + 32) else c", "res": "killed", "err": "Verif/Lemmas/RoundTrip.lean:reads_cpuName", "t": 37}
{"file": "Convert", "line": 63, "old": "    derivedFrom := none }", "new": "    derivedFrom := (some default) }", "res": "killed", "err": "Verif/Props/Convert.lean:plain_convRC", "t": 2}
{"file": "Elem", "line": 151, "old": "    if p.bitOffset.isSome || p.bitWidth.isSome then", "new": "    if p.bitOffset.isSome && p.bitWidth.isSome then", "res": "killed", "err": "Verif/Props/Dim.lean:bits_iff", "t": 24}
{"file": "Convert", "line": 29, "old": "  { name := v.name, description := v.description, value := some (intStr v.value), isDefault := some false }", "new": "  { name := v.name, description := v.description, value := some (intStr v.value), isDefault := some true }", "res": "killed", "err": "Verif/Lemmas/AgainEnum.lean:resolve_again", "t": 2}
{"file": "Enum", "line": 26, "old": "    | none => none", "new": "    | none => (some default)", "res": "killed", "err": "Verif/Lemmas/EnumConv.lean:binaryWithWildcard_accept", "t": 9}
{"file": "Finalize", "line": 229, "old": "      M.bind (checkSizeAlign r.name r.props.size r.addressOffset) fun o =>", "new": "      M.bind (checkSizeAlign r.name r.props.resetMask r.addressOffset) fun o =>", "res": "killed", "err": "Verif/Lemmas/Fin.lean:finalizeRC_reg", "t": 3}
{"file": "Finalize", "line": 15, "old": "  if b = 1 then M.pure 1", "new": "  if b = 1 then M.pure 2", "res": "killed", "err": "Verif/Lemmas/Fin.lean:getAlignment_ok", "t": 3}
{"file": "Py", "line": 221, "old": "  | m, x :: xs => maxList (if m < x then x else m) xs", "new": "  | m, x :: xs => maxList (if m \u2264 x then x else m) xs", "res": "killed", "err": "Verif/Lemmas/Basic.lean:le_maxList", "t": 5}
{"file": "Enum", "line": 181, "old": "      M.bind (finalizeEnumValues c.values lsb msb) fun vs =>", "new": "      M.bind (finalizeEnumValues c.values lsb lsb) fun vs =>", "res": "killed", "err": "Verif/Lemmas/FinField.lean:proc_container", "t": 22}
{"file": "Parse", "line": 215, "old": "  let dim \u2190 optInt (s%\"dim\") e", "new": "  let dim \u2190 optInt (s%\"Xim\") e", "res": "killed", "err": "Verif/Lemmas/RoundTrip.lean:parseDim_rt", "t": 11}
{"file": "Graph", "line": 104, "old": "  | x :: xs => x :: (dedup xs).filter (\u00b7 != x)", "new": "  | x :: xs => x :: (dedup xs).dropWhile (\u00b7 != x)", "res": "killed", "err": "Verif/Lemmas/InvRun.lean:mem_dedup", "t": 12}
{"file": "Parse", "line": 39, "old": "  else if v = s%\"1\" then M.pure true", "new": "  else if v \u2260 s%\"1\" then M.pure true", "res": "killed", "err": "Verif/Props/Xml.lean:C38_bool", "t": 58}
{"file": "Serialize", "line": 150, "old": "      optLeaf (s%\"alternateGroup\") id r.alternateGroup ++", "new": "      optLeaf (s%\"XlternateGroup\") id r.alternateGroup ++", "res": "killed", "err": "Verif/Lemmas/RoundTrip.lean:parseRegister_rt", "t": 11}
{"file": "Finalize", "line": 108, "old": "def altFuel (lookup : AltLookup) : Nat := (2 * lookup.length + 2) * (lookup.length + 2) + 1", "new": "def altFuel (lookup : AltLookup) : Nat := (2 * lookup.length + 2) * (lookup.length - 2) + 1", "res": "killed", "err": "Verif/Lemmas/Alt.lean:allowedAlternates_spec", "t": 2}
{"file": "Load", "line": 65, "old": "  [[1, 0], [1, 1], [1, 2], [1, 3, 1], [1, 3, 2], [1, 3, 3], [1, 3, 4], [1, 3, 5], [1, 3, 6], [1, 3, 7], [1, 3, 8],", "new": "  [[1, 0], [2, 1], [1, 2], [1, 3, 1], [1, 3, 2], [1, 3, 3], [1, 3, 4], [1, 3, 5], [1, 3, 6], [1, 3, 7], [1, 3, 8],", "res": "killed", "err": "Verif/Props/Misc.lean:C51_shipped", "t": 3}
{"file": "Proc", "line": 91, "old": "  dimIndex : Option Str := none", "new": "  dimIndex : Option Str := (some default)", "res": "killed", "err": "Verif/Lemmas/AgainTree.lean:field_conv", "t": 108}
{"file": "Finalize", "line": 33, "old": "  M.bind (finalizeContainers f.containers f.hd.lsb f.hd.msb) fun cs =>", "new": "  M.bind (finalizeContainers f.containers f.hd.msb f.hd.msb) fun cs =>", "res": "killed", "err": "Verif/Lemmas/FinField.lean:finalizeField_ok", "t": 21}
{"file": "Resolver", "line": 448, "old": "    | some s => M.pure (some (if s % 8 \u2260 0 then 0 else s))", "new": "    | some s => M.pure (some (if s % 8 \u2260 1 then 0 else s))", "res": "killed", "err": "Verif/Lemmas/Sizes.lean:childSize_ok", "t": 39}
{"file": "Py", "line": 48, "old": "  (0x2000 \u2264 n && n \u2264 0x200A) || n == 0x2028 || n == 0x2029 || n == 0x202F || n == 0x205F || n == 0x3000", "new": "  (0x2000 \u2264 n && n \u2264 0x200A) || n == 0x2028 || n == 0x2029 || n != 0x202F || n == 0x205F || n == 0x3000", "res": "killed", "err": "Verif/Lemmas/Text.lean:isSpace_eq", "t": 10}
{"file": "Finalize", "line": 309, "old": "          (ys.map fun r => b + r.addressOffset + r.extent - 1)", "new": "          (ys.map fun r => b + r.addressOffset + r.extent)", "res": "killed", "err": "Verif/Lemmas/Fin.lean:finalizePeripheral_ok", "t": 5}
{"file": "Graph", "line": 85, "old": "def isElem (g : Graph) (i : Nat) : Bool := (g.elem? i).isSome", "new": "def isElem (g : Graph) (i : Nat) : Bool := (g.elem? i).isNone", "res": "killed", "err": "Verif/Lemmas/InvStep.lean:isElem_isSome", "t": 13}
{"file": "Proc", "line": 122, "old": "  access : Access", "new": "  protection : Access", "res": "invalid", "err": "Verif/Model/Convert.lean:convField", "t": 7}
{"file": "Enum", "line": 137, "old": "    M.pure ((evs ++ added).filter (fun v => !v.isDefault))", "new": "    M.pure ((evs).filter (fun v => !v.isDefault))", "res": "killed", "err": "Verif/Lemmas/EnumCore.lean:extendDefault_spec", "t": 14}
{"file": "Serialize", "line": 170, "old": "          optLeaf (s%\"headerStructName\") id c.headerStructName ++", "new": "          optLeaf (s%\"headerStructName\") id c.description ++", "res": "killed", "err": "Verif/Lemmas/RoundTrip.lean:parseRC_rt", "t": 12}
{"file": "Elem", "line": 148, "old": "  let lsb := orIfNone p.lsb (base.map (\u00b7.lsb))", "new": "  let lsb := orIfNone p.lsb (base.map (\u00b7.msb))", "res": "killed", "err": "Verif/Props/Dim.lean:bits_iff", "t": 24}
{"file": "Finalize", "line": 148, "old": "    | none, some _ => true", "new": "    | none, some _ => false", "res": "killed", "err": "Verif/Lemmas/TreeInv.lean:rcLe_total", "t": 15}
{"file": "Parse", "line": 198, "old": "  let isDefault \u2190 optBool (s%\"isDefault\") e", "new": "  let isDefault \u2190 optBool (s%\"XsDefault\") e", "res": "killed", "err": "Verif/Lemmas/RoundTrip.lean:parseEnumValue_rt", "t": 13}
{"file": "Serialize", "line": 88, "old": "  .mk (s%\"range\") none [] [leaf (s%\"minimum\") (intStr r.1), leaf (s%\"maximum\") (intStr r.2)]", "new": "  .mk (s%\"range\") none [] [leaf (s%\"Xinimum\") (intStr r.1), leaf (s%\"maximum\") (intStr r.2)]", "res": "killed", "err": "Verif/Lemmas/RoundTrip.lean:parseWriteConstraint_rt", "t": 11}
{"file": "Serialize", "line": 109, "old": "  optLeaf (s%\"dimIndex\") id d.dimIndex ++ optLeaf (s%\"dimName\") id d.dimName ++", "new": "  optLeaf (s%\"XimIndex\") id d.dimIndex ++ optLeaf (s%\"dimName\") id d.dimName ++", "res": "killed", "err": "Verif/Lemmas/RoundTrip.lean:parseDim_rt", "t": 10}
{"file": "Graph", "line": 315, "old": "    | some e => if e.isProcessed then .childR else .childU", "new": "    | some e => if e.isProcessed then .childU else .childR", "res": "killed", "err": "Verif/Lemmas/Nodes.lean:AllN.addChildToGraph", "t": 4}
{"file": "Parse", "line": 362, "old": "  let ints \u2190 M.mapM parseInterrupt (e.findall (s%\"interrupt\"))", "new": "  let ints \u2190 M.mapM parseInterrupt (e.findall (s%\"Xnterrupt\"))", "res": "killed", "err": "Verif/Lemmas/RoundTrip.lean:parsePeripheral_rt", "t": 13}
{"file": "Resolver", "line": 287, "old": "    | some eb => if e.level \u2260 eb.level then M.throw (.resolve 137) else M.pure (b, eb)", "new": "    | some eb => if e.level = eb.level then M.throw (.resolve 137) else M.pure (b, eb)", "res": "killed", "err": "Verif/Lemmas/InvRun.lean:derivedFromBase_ok", "t": 9}
{"file": "Resolver", "line": 32, "old": "  | some e => e.level == l", "new": "  | some e => e.level != l", "res": "killed", "err": "Verif/Lemmas/InvRun.lean:hasLevel_elem", "t": 8}
{"file": "Elem", "line": 131, "old": "  | _ => none", "new": "  | _ => (some default)", "res": "killed", "err": "Verif/Props/Dim.lean:bitRange_match_inv", "t": 23}
{"file": "Resolver", "line": 189, "old": "      M.bind (createAll p base (i + 1) ns ds) fun xs => M.pure (x :: xs)", "new": "      M.bind (createAll p base (i) ns ds) fun xs => M.pure (x :: xs)", "res": "killed", "err": "Verif/Lemmas/InvRun.lean:createAll_ok", "t": 8}
{"file": "Dim", "line": 53, "old": "def intRange (a b : Int) : List Int := (rangeFrom 0 (b - a + 1).toNat).map (fun k => a + Int.ofNat k)", "new": "def intRange (a b : Int) : List Int := (rangeFrom 0 (b - a + 1).toNat).map (fun k => a - Int.ofNat k)", "res": "killed", "err": "Verif/Props/Dim.lean:intRange_dec", "t": 24}
{"file": "Py", "line": 166, "old": "def toBase (b n : Nat) : Str := toBaseAux b (n + 1) n []", "new": "def toBase (b n : Nat) : Str := toBaseAux b (n - 1) n []", "res": "killed", "err": "Verif/Lemmas/Digits.lean:digits_toBase", "t": 8}
{"file": "Py", "line": 42, "old": "  c == '_' || isDigitC c || isUpperC c || (97 \u2264 c.toNat && c.toNat \u2264 122)", "new": "  c != '_' || isDigitC c || isUpperC c || (97 \u2264 c.toNat && c.toNat \u2264 122)", "res": "killed", "err": "Verif/Lemmas/Text.lean:isWord_eq", "t": 9}
{"file": "Parse", "line": 37, "old": "  if lower v = s%\"true\" then M.pure true", "new": "  if lower v = s%\"true\" then M.pure false", "res": "killed", "err": "Verif/Lemmas/RoundTrip.lean:toBool_boolStr", "t": 12}
{"file": "Parse", "line": 288, "old": "  M.pure { name := name, description := description, bitOffset := bitOffset, bitWidth := bitWidth, lsb := lsb", "new": "  M.pure { name := name, description := description, bitOffset := bitOffset, bitWidth := bitWidth, lsb := msb", "res": "killed", "err": "Verif/Lemmas/RoundTrip.lean:parseField_rt", "t": 13}
{"file": "Finalize", "line": 243, "old": "          let e := maxList (y.baseAddress + y.extent - 1) (ys.map fun z => z.baseAddress + z.extent - 1)", "new": "          let e := maxList (y.baseAddress + y.extent - 2) (ys.map fun z => z.baseAddress + z.extent - 1)", "res": "killed", "err": "Verif/Lemmas/Fin.lean:finalizeRC_clu", "t": 4}
{"file": "Serialize", "line": 45, "old": "    ([leaf (s%\"name\") c.name.val, leaf (s%\"revision\") c.revision, leaf (s%\"endian\") c.endian.val] ++", "new": "    ([leaf (s%\"name\") c.name.val, leaf (s%\"Xevision\") c.revision, leaf (s%\"endian\") c.endian.val] ++", "res": "killed", "err": "Verif/Lemmas/RoundTrip.lean:parseCpu_rt", "t": 15}
{"file": "Parse", "line": 224, "old": "  let offset \u2190 optInt (s%\"offset\") e", "new": "  let offset \u2190 optInt (s%\"Xffset\") e", "res": "killed", "err": "Verif/Lemmas/RoundTrip.lean:parseAddressBlock_rt", "t": 16}
{"file": "Dim", "line": 40, "old": "  !ws.isEmpty && match s.drop ws.length with", "new": "  ws.isEmpty && match s.drop ws.length with", "res": "killed", "err": "Verif/Props/Dim.lean:dimIndexList_denotes", "t": 25}
{"file": "Finalize", "line": 186, "old": "            M.bind (M.ok () (overlapWarns true rl r.name r.baseAddress allowed iv)) fun _ =>", "new": "            M.bind (M.ok () (overlapWarns false rl r.name r.baseAddress allowed iv)) fun _ =>", "res": "killed", "err": "Verif/Lemmas/Overlap.lean:checkRCOverlaps_mem", "t": 17}
{"file": "Dim", "line": 75, "old": "          else M.pure ((rangeFrom x.toNat (y.toNat + 1 - x.toNat)).map (fun n => [Char.ofNat n]))", "new": "          else M.pure ((rangeFrom x.toNat (y.toNat - 1 - x.toNat)).map (fun n => [Char.ofNat n]))", "res": "killed", "err": "Verif/Props/Dim.lean:dimIndexList_denotes", "t": 30}
{"file": "Resolver", "line": 524, "old": "  bottomUp g (g.nodes.length + 1) (g.indices.filter fun i => (g.successors i).isEmpty) [] { g := g }", "new": "  bottomUp g (g.nodes.length - 1) (g.indices.filter fun i => (g.successors i).isEmpty) [] { g := g }", "res": "killed", "err": "Verif/Lemmas/Fuel.lean:nf_finalizeProcessing", "t": 39}
{"file": "Finalize", "line": 298, "old": "    M.bind (M.warnIf (decide (p.hd.baseAddress % 4 \u2260 0)) (.peripheralUnaligned p.hd.name)) fun _ =>", "new": "    M.bind (M.warnIf (decide (p.hd.baseAddress % 4 = 0)) (.peripheralUnaligned p.hd.name)) fun _ =>", "res": "killed", "err": "Verif/Lemmas/AgainDev.lean:periph_lift", "t": 59}
{"file": "Serialize", "line": 196, "old": "      optLeaf (s%\"disableCondition\") id p.hd.disableCondition ++", "new": "      optLeaf (s%\"XisableCondition\") id p.hd.disableCondition ++", "res": "killed", "err": "Verif/Lemmas/RoundTrip.lean:parsePeripheral_rt", "t": 15}
{"file": "Resolver", "line": 321, "old": "      if ns = [] then M.pure g1", "new": "      if ns \u2260 [] then M.pure g1", "res": "killed", "err": "Verif/Lemmas/ShapeRun.lean:flat_rounds", "t": 37}
{"file": "Py", "line": 27, "old": "  if 97 \u2264 c.toNat \u2227 c.toNat \u2264 122 then Char.ofNat (c.toNat - 32) else c", "new": "  if 97 \u2264 c.toNat \u2227 c.toNat \u2264 122 then Char.ofNat (c.toNat - 31) else c", "res": "killed", "err": "Verif/Lemmas/RoundTrip.lean:reads_cpuName", "t": 45}
{"file": "Finalize", "line": 309, "old": "          (ys.map fun r => b + r.addressOffset + r.extent - 1)", "new": "          (ys.map fun r => b + r.addressOffset + r.extent + 1)", "res": "killed", "err": "Verif/Lemmas/Fin.lean:finalizePeripheral_ok", "t": 4}
{"file": "Dim", "line": 96, "old": "  if !dispHas arrMark display && dispHas lstMark display then", "new": "  if !dispHas arrMark display || dispHas lstMark display then", "res": "killed", "err": "Verif/Lemmas/DimInv.lean:processDim_some", "t": 13}
{"file": "Resolver", "line": 257, "old": "  M.bind (createAll parsed base 0 names displays) fun xs =>", "new": "  M.bind (createAll parsed base 1 names displays) fun xs =>", "res": "killed", "err": "Verif/Lemmas/InvRun.lean:processDimable_ok", "t": 11}
{"file": "Serialize", "line": 191, "old": "      optLeaf (s%\"alternatePeripheral\") id p.hd.alternatePeripheral ++", "new": "      optLeaf (s%\"XlternatePeripheral\") id p.hd.alternatePeripheral ++", "res": "killed", "err": "Verif/Lemmas/RoundTrip.lean:parsePeripheral_rt", "t": 16}
{"file": "Elem", "line": 155, "old": "    else none", "new": "    else (some default)", "res": "killed", "err": "Verif/Props/Dim.lean:bits_iff", "t": 30}
{"file": "Finalize", "line": 17, "old": "  else if b = 4 then M.pure 4", "new": "  else if b = 5 then M.pure 4", "res": "killed", "err": "Verif/Lemmas/Fin.lean:getAlignment_ok", "t": 4}
{"file": "Py", "line": 226, "old": "  | x :: xs => x + sumList xs", "new": "  | x :: xs => x - sumList xs", "res": "killed", "err": "Verif/Lemmas/Inherit.lean:ScopeFrom.path", "t": 58}
{"file": "Parse", "line": 401, "old": "  let vendorId \u2190 optText (s%\"vendorID\") e", "new": "  let vendorId \u2190 optText (s%\"XendorID\") e", "res": "killed", "err": "Verif/Lemmas/RoundTrip.lean:parseDevice_rt", "t": 18}
{"file": "Enum", "line": 166, "old": "  M.filterMapM (finalizeEnumValue lsb msb) vs", "new": "  M.filterMapM (finalizeEnumValue msb msb) vs", "res": "killed", "err": "Verif/Lemmas/EnumVal.lean:finalizeEnumValues_spec", "t": 6}
{"file": "Elem", "line": 39, "old": "  { dim := orIfNone p.dim (b.bind (\u00b7.dim))", "new": "  { dim := orIfNone p.dim (b.bind (\u00b7.dimIncrement))", "res": "killed", "err": "Verif/Lemmas/Complete.lean:mergeDim_over", "t": 58}
{"file": "Serialize", "line": 77, "old": "    ([leaf (s%\"offset\") (hexStr b.offset), leaf (s%\"size\") (hexStr b.size), leaf (s%\"usage\") b.usage.val] ++", "new": "    ([leaf (s%\"Xffset\") (hexStr b.offset), leaf (s%\"size\") (hexStr b.size), leaf (s%\"usage\") b.usage.val] ++", "res": "killed", "err": "Verif/Lemmas/RoundTrip.lean:parseAddressBlock_rt", "t": 16}
{"file": "Resolver", "line": 435, "old": "          | .clu c => (match c.props.size with | some s => M.pure s | none => parentSize g f p)", "new": "          | .clu c => (match c.props.resetMask with | some s => M.pure s | none => parentSize g f p)", "res": "killed", "err": "Verif/Lemmas/FinBuild.lean:parentSize_eff", "t": 50}
{"file": "Serialize", "line": 168, "old": "          optLeaf (s%\"description\") id c.description ++", "new": "          optLeaf (s%\"Xescription\") id c.description ++", "res": "killed", "err": "Verif/Lemmas/RoundTrip.lean:parseRC_rt", "t": 17}
{"file": "Graph", "line": 296, "old": "      let cands := rem.filter fun n => !g.edges.any fun e => e.dst == n && rem.contains e.src", "new": "      let cands := rem.dropWhile fun n => !g.edges.any fun e => e.dst == n && rem.contains e.src", "res": "killed", "err": "Verif/Lemmas/FlatOrder.lean:topoGo_range", "t": 21}
{"file": "Parse", "line": 358, "old": "  let hdr \u2190 optText (s%\"headerStructName\") e", "new": "  let hdr \u2190 optText (s%\"XeaderStructName\") e", "res": "killed", "err": "Verif/Lemmas/RoundTrip.lean:parsePeripheral_rt", "t": 15}
{"file": "Serialize", "line": 208, "old": "  if ps.isEmpty then [] else [.mk (s%\"peripherals\") none [] (ps.map serPeripheral)]", "new": "  if ps.isEmpty then [] else [.mk (s%\"Xeripherals\") none [] (ps.map serPeripheral)]", "res": "killed", "err": "Verif/Lemmas/RoundTrip.lean:sel_serPeripherals_ne", "t": 15}
{"file": "Parse", "line": 301, "old": "  let description \u2190 rawText (s%\"description\") e", "new": "  let description \u2190 rawText (s%\"displayName\") e", "res": "killed", "err": "Verif/Lemmas/RoundTrip.lean:parseRegister_rt", "t": 16}
{"file": "Resolver", "line": 486, "old": "    else if conts.length = 2 && !(usages.all fun u => u == .read || u == .write) then M.throw .enumContainer", "new": "    else if conts.length = 2 && !(usages.all fun u => u == .read || u == .read) then M.throw .enumContainer", "res": "killed", "err": "Verif/Lemmas/FinState.lean:finalizeFieldNode_inv", "t": 12}
{"file": "Py", "line": 211, "old": "  if a.1 < b.1 then true else if b.1 < a.1 then false else strLe a.2 b.2", "new": "  if a.1 < b.1 then true else if b.1 < a.1 then true else strLe a.2 b.2", "res": "killed", "err": "Verif/Lemmas/Basic.lean:totalPre_intStr", "t": 6}
{"file": "Py", "line": 81, "old": "  | d :: ds => if d = c then new ++ ds else d :: replaceFirstC c new ds", "new": "  | d :: ds => if d \u2260 c then new ++ ds else d :: replaceFirstC c new ds", "res": "killed", "err": "Verif/Lemmas/EnumLit.lean:replaceXWith_cons", "t": 17}
{"file": "Proc", "line": 152, "old": "  dim : IDim", "new": "  dimIncrement : IDim", "res": "invalid", "err": "Verif/Model/Elem.lean:processCluster", "t": 13}
{"file": "Py", "line": 175, "old": "  | .negSucc n => '-' :: natStr (n + 1)", "new": "  | .negSucc n => '-' :: natStr (n + 2)", "res": "killed", "err": "Verif/Lemmas/Text.lean:intText_eq", "t": 9}
{"file": "Finalize", "line": 40, "old": "        bitWidth := f.hd.msb - f.hd.lsb + 1, bitRange := (f.hd.msb, f.hd.lsb), containers := cs }", "new": "        bitWidth := f.hd.msb + f.hd.lsb + 1, bitRange := (f.hd.msb, f.hd.lsb), containers := cs }", "res": "killed", "err": "Verif/Lemmas/FinField.lean:finalizeField_ok", "t": 15}
{"file": "Finalize", "line": 243, "old": "          let e := maxList (y.baseAddress + y.extent - 1) (ys.map fun z => z.baseAddress + z.extent - 1)", "new": "          let e := maxList (y.baseAddress + y.extent - 1) (ys.map fun z => z.baseAddress + z.extent - 2)", "res": "killed", "err": "Verif/Lemmas/Fin.lean:finalizeRC_clu", "t": 4}
{"file": "Enum", "line": 128, "old": "    let uncovered := (fieldValues (msb - lsb + 1).toNat).filter (fun v => !covered.contains v)", "new": "    let uncovered := (fieldValues (msb - msb + 1).toNat).filter (fun v => !covered.contains v)", "res": "killed", "err": "Verif/Lemmas/EnumCore.lean:extendDefault_spec", "t": 11}
{"file": "Resolver", "line": 220, "old": "      M.bind (g.addElementChild par \u27e8some x.name, lvl, true, parsed, some x, false\u27e9 .childR) fun (g1, j) =>", "new": "      M.bind (g.addElementChild par \u27e8some x.name, lvl, true, parsed, some x, true\u27e9 .childR) fun (g1, j) =>", "res": "killed", "err": "Verif/Lemmas/Nodes.lean:AllN.addInstances", "t": 3}
{"file": "Serialize", "line": 149, "old": "      optLeaf (s%\"description\") id r.description ++", "new": "      optLeaf (s%\"description\") id r.displayName ++", "res": "killed", "err": "Verif/Lemmas/RoundTrip.lean:parseRegister_rt", "t": 14}
{"file": "Load", "line": 66, "old": "   [1, 3, 9], [1, 3, 10], [1, 3, 11]]", "new": "   [1, 3, 9], [1, 3, 11], [1, 3, 11]]", "res": "killed", "err": "Verif/Props/Misc.lean:C51_shipped", "t": 3}
{"file": "Finalize", "line": 309, "old": "          (ys.map fun r => b + r.addressOffset + r.extent - 1)", "new": "          (ys.map fun r => b - r.addressOffset + r.extent - 1)", "res": "killed", "err": "Verif/Lemmas/Fin.lean:finalizePeripheral_ok", "t": 4}
{"file": "Py", "line": 27, "old": "  if 97 \u2264 c.toNat \u2227 c.toNat \u2264 122 then Char.ofNat (c.toNat - 32) else c", "new": "  if 97 < c.toNat \u2227 c.toNat \u2264 122 then Char.ofNat (c.toNat - 32) else c", "res": "killed", "err": "Verif/Lemmas/Says.lean:toUpper_eq", "t": 55}
{"file": "Resolver", "line": 454, "old": "  let m := maxList (-1) sizes", "new": "  let m := maxList (-2) sizes", "res": "killed", "err": "Verif/Lemmas/Sizes.lean:calculateSize_ok", "t": 28}
{"file": "Serialize", "line": 126, "old": "  .mk (s%\"field\") none (optAttrib (s%\"derivedFrom\") id f.derivedFrom)", "new": "  .mk (s%\"field\") none (optAttrib (s%\"XerivedFrom\") id f.derivedFrom)", "res": "killed", "err": "Verif/Lemmas/RoundTrip.lean:parseField_rt", "t": 16}
{"file": "Graph", "line": 186, "old": "def hasIncoming (g : Graph) (i : Nat) (ty : EdgeT) : Bool := (g.inEdges i).any fun e => e.ty == ty", "new": "def hasIncoming (g : Graph) (i : Nat) (ty : EdgeT) : Bool := (g.inEdges i).any fun e => e.ty != ty", "res": "killed", "err": "Verif/Lemmas/FlatOrder.lean:flat_incoming", "t": 19}
{"file": "Finalize", "line": 145, "old": "  if a.baseAddress < b.baseAddress then true", "new": "  if a.baseAddress \u2264 b.baseAddress then true", "res": "killed", "err": "Verif/Lemmas/TreeInv.lean:rcLe_total", "t": 17}
{"file": "Resolver", "line": 65, "old": "          if fs.length = 1 then M.pure fs else M.throw (.resolve 303)", "new": "          if fs.length = 1 then M.throw (.resolve 303) else M.pure fs", "res": "killed", "err": "Verif/Lemmas/Lookup.lean:searchGo_ok", "t": 5}
{"file": "Resolver", "line": 60, "old": "      else if g.nameOf n \u2260 some part then searchGo g exclude part sub ms ns", "new": "      else if g.nameOf n = some part then searchGo g exclude part sub ms ns", "res": "killed", "err": "Verif/Lemmas/Lookup.lean:searchGo_ok", "t": 4}
{"file": "Finalize", "line": 105, "old": "        | some (some prim) => altClosure lookup strict f (cur :: allowed) (prim :: (users.reverse ++ rest))", "new": "        | some (some prim) => altClosure lookup strict f (cur :: allowed) (prim :: (users.reverse))", "res": "killed", "err": "Verif/Lemmas/Alt.lean:altClosure_step", "t": 3}
{"file": "Serialize", "line": 133, "old": "      optLeaf (s%\"access\") Access.val f.access ++", "new": "      optLeaf (s%\"protection\") Access.val f.access ++", "res": "killed", "err": "Verif/Lemmas/RoundTrip.lean:parseField_rt", "t": 14}
{"file": "Py", "line": 139, "old": "    | '0' :: 'o' :: t => digitsAfterPrefix 8 t", "new": "    | '1' :: 'o' :: t => digitsAfterPrefix 8 t", "res": "killed", "err": "Verif/Lemmas/Digits.lean:unsignedInt_natStr0", "t": 9}
{"file": "Serialize", "line": 148, "old": "      optLeaf (s%\"displayName\") id r.displayName ++", "new": "      optLeaf (s%\"XisplayName\") id r.displayName ++", "res": "killed", "err": "Verif/Lemmas/RoundTrip.lean:parseRegister_rt", "t": 15}
{"file": "Finalize", "line": 183, "old": "          if r.alternateGroup.isSome then checkRCOverlaps rl cl iv xs", "new": "          if r.alternateGroup.isNone then checkRCOverlaps rl cl iv xs", "res": "killed", "err": "Verif/Lemmas/Overlap.lean:checkRCOverlaps_mem", "t": 21}
{"file": "Py", "line": 193, "old": "  | y :: ys => if le x y then x :: y :: ys else y :: insertBy le x ys", "new": "  | y :: ys => if le x y then y :: insertBy le x ys else x :: y :: ys", "res": "killed", "err": "Verif/Lemmas/Basic.lean:insertBy_perm", "t": 5}
{"file": "Enum", "line": 128, "old": "    let uncovered := (fieldValues (msb - lsb + 1).toNat).filter (fun v => !covered.contains v)", "new": "    let uncovered := (fieldValues (msb + lsb + 1).toNat).filter (fun v => !covered.contains v)", "res": "killed", "err": "Verif/Lemmas/EnumCore.lean:extendDefault_spec", "t": 13}
{"file": "Enum", "line": 147, "old": "  M.bind (processEnumValues p.values lsb msb) fun vs =>", "new": "  M.bind (processEnumValues p.values msb msb) fun vs =>", "res": "killed", "err": "Verif/Lemmas/FinField.lean:proc_container", "t": 35}
{"file": "Serialize", "line": 245, "old": "  parseDevice { nsmap := (serDevice d).nsmap, root := reread fmt 0 (serDevice d).root }", "new": "  parseDevice { nsmap := (serDevice d).nsmap, root := reread fmt 1 (serDevice d).root }", "res": "killed", "err": "Verif/Lemmas/RoundTrip.lean:parseDevice_rt", "t": 12}
{"file": "Finalize", "line": 18, "old": "  else if b = 8 then M.pure 4", "new": "  else if b = 16 then M.pure 4", "res": "killed", "err": "Verif/Lemmas/Fin.lean:getAlignment_ok", "t": 4}
{"file": "Serialize", "line": 194, "old": "      optLeaf (s%\"appendToName\") id p.hd.appendToName ++", "new": "      optLeaf (s%\"XppendToName\") id p.hd.appendToName ++", "res": "killed", "err": "Verif/Lemmas/RoundTrip.lean:parsePeripheral_rt", "t": 14}
{"file": "Graph", "line": 212, "old": "  match ((g.outEdges ph).filter fun e => g.isElem e.dst && e.ty == .placeholder).map (\u00b7.dst) with", "new": "  match ((g.outEdges ph).dropWhile fun e => g.isElem e.dst && e.ty == .placeholder).map (\u00b7.dst) with", "res": "killed", "err": "Verif/Lemmas/InvRun.lean:placeholderChild_ok", "t": 12}
{"file": "Graph", "line": 297, "old": "      match (match cands.find? (fun n => !g.hasIncoming n .derive) with", "new": "      match (match cands.find? (fun n => g.hasIncoming n .derive) with", "res": "killed", "err": "Verif/Lemmas/FlatOrder.lean:topoGo_range", "t": 16}
{"file": "Resolver", "line": 123, "old": "  let cl := closure es (g.unprocessedRoots.filter ok)", "new": "  let cl := closure es (g.unprocessedRoots.dropWhile ok)", "res": "killed", "err": "Verif/Lemmas/FlatOrder.lean:flat_order", "t": 14}
{"file": "Elem", "line": 48, "old": "    resetValue := orIfNone p.resetValue (b.bind (\u00b7.resetValue))", "new": "    resetValue := orIfNone p.resetValue (b.bind (\u00b7.resetMask))", "res": "killed", "err": "Verif/Lemmas/MadeInv.lean:regFrom_step", "t": 19}
{"file": "Graph", "line": 166, "old": "  ((g.outEdges i).filter fun e => g.isElem e.dst && isChildEdge e).map (\u00b7.dst)", "new": "  ((g.outEdges i).dropWhile fun e => g.isElem e.dst && isChildEdge e).map (\u00b7.dst)", "res": "killed", "err": "Verif/Lemmas/WF.lean:elementChildren_edge", "t": 6}
{"file": "Proc", "line": 65, "old": "  size : Int", "new": "  resetMask : Int", "res": "invalid", "err": "Verif/Model/Convert.lean:convAddressBlock", "t": 7}
{"file": "Finalize", "line": 309, "old": "          (ys.map fun r => b + r.addressOffset + r.extent - 1)", "new": "          (ys.map fun r => b + r.addressOffset - r.extent - 1)", "res": "killed", "err": "Verif/Lemmas/Fin.lean:finalizePeripheral_ok", "t": 5}
{"file": "Py", "line": 203, "old": "  | _ :: _, [] => false", "new": "  | _ :: _, [] => true", "res": "killed", "err": "Verif/Lemmas/Basic.lean:strLe_trans", "t": 5}
{"file": "Enum", "line": 48, "old": "  let sub := if (s%\"0x\").isPrefixOf (lower v) then v.drop 2 else lower v", "new": "  let sub := if (s%\"0x\").isPrefixOf (lower v) then lower v else v.drop 2", "res": "killed", "err": "Verif/Lemmas/EnumDev.lean:hasWildcard_eq", "t": 38}
{"file": "Parse", "line": 229, "old": "  M.pure { offset := offset.getD 0, size := size, usage := usage, protection := protection }", "new": "  M.pure { offset := offset.getD 1, size := size, usage := usage, protection := protection }", "res": "killed", "err": "Verif/Lemmas/Says.lean:gives_parseAddressBlock", "t": 25}
{"file": "Serialize", "line": 128, "old": "      [leaf (s%\"name\") f.name] ++", "new": "      [leaf (s%\"Xame\") f.name] ++", "res": "killed", "err": "Verif/Lemmas/RoundTrip.lean:parseField_rt", "t": 15}
{"file": "Graph", "line": 179, "old": "    edges := g.edges.filter fun e => e.src != i && e.dst != i }", "new": "    edges := g.edges.filter fun e => e.src != i && e.dst == i }", "res": "killed", "err": "Verif/Lemmas/WF.lean:removePlaceholder_wf", "t": 7}
{"file": "Graph", "line": 326, "old": "      M.bind (addChildToGraph g parent \u27e8c.name, .enumcont, false, .enum c, none, false\u27e9) fun (g1, _) =>", "new": "      M.bind (addChildToGraph g parent \u27e8c.name, .enumcont, true, .enum c, none, false\u27e9) fun (g1, _) =>", "res": "killed", "err": "Verif/Lemmas/Flat.lean:constrEnums_eq", "t": 18}
{"file": "Graph", "line": 333, "old": "      M.bind (addChildToGraph g parent \u27e8some f.name, .field, false, .field f, none, false\u27e9) fun (g1, i) =>", "new": "      M.bind (addChildToGraph g parent \u27e8some f.name, .field, true, .field f, none, false\u27e9) fun (g1, i) =>", "res": "killed", "err": "Verif/Lemmas/Made.lean:inv_constrFields", "t": 9}
{"file": "Graph", "line": 363, "old": "    { nodes := [some (.elem \u27e8some (s%\"Device\"), .device, true, .device, none, false\u27e9)] } d.peripherals", "new": "    { nodes := [some (.elem \u27e8some (s%\"Device\"), .device, true, .device, none, true\u27e9)] } d.peripherals", "res": "killed", "err": "Verif/Lemmas/Cover.lean:cover_constructGraph", "t": 13}
{"file": "Serialize", "line": 83, "old": "    ([leaf (s%\"name\") i.name] ++ optLeaf (s%\"description\") id i.description ++", "new": "    ([leaf (s%\"name\") i.name] ++ optLeaf (s%\"displayName\") id i.description ++", "res": "killed", "err": "Verif/Lemmas/RoundTrip.lean:parseInterrupt_rt", "t": 15}
{"file": "Serialize", "line": 145, "old": "  .mk (s%\"register\") none (optAttrib (s%\"derivedFrom\") id r.derivedFrom)", "new": "  .mk (s%\"Xegister\") none (optAttrib (s%\"derivedFrom\") id r.derivedFrom)", "res": "killed", "err": "Verif/Lemmas/RoundTrip.lean:serRC_tag", "t": 15}
{"file": "Serialize", "line": 217, "old": "        optLeaf (s%\"vendorID\") id d.hd.vendorId ++", "new": "        optLeaf (s%\"XendorID\") id d.hd.vendorId ++", "res": "killed", "err": "Verif/Lemmas/RoundTrip.lean:parseDevice_rt", "t": 16}
{"file": "Pipeline", "line": 24, "old": "    resetValue := p.resetValue.getD 0", "new": "    resetValue := p.resetValue.getD 1", "res": "killed", "err": "Verif/Lemmas/OriginInv.lean:props4D_device", "t": 14}
{"file": "Serialize", "line": 131, "old": "      serPair (s%\"lsb\") (s%\"msb\") f.lsb f.msb ++", "new": "      serPair (s%\"lsb\") (s%\"msb\") f.msb f.msb ++", "res": "killed", "err": "Verif/Lemmas/RoundTrip.lean:parseField_rt", "t": 15}
{"file": "Parse", "line": 225, "old": "  let size \u2190 reqInt (s%\"size\") e", "new": "  let size \u2190 reqInt (s%\"resetMask\") e", "res": "killed", "err": "Verif/Lemmas/RoundTrip.lean:parseAddressBlock_rt", "t": 15}
{"file": "Enum", "line": 160, "old": "    if inFieldRange x (msb - lsb + 1) then", "new": "    if inFieldRange x (lsb - lsb + 1) then", "res": "killed", "err": "Verif/Lemmas/EnumVal.lean:finalizeEnumValues_spec", "t": 7}
{"file": "Dim", "line": 63, "old": "        match pyInt 10 a, pyInt 10 b with", "new": "        match pyInt 11 a, pyInt 10 b with", "res": "killed", "err": "Verif/Props/Dim.lean:dimIndexList_denotes", "t": 25}
{"file": "Serialize", "line": 101, "old": "    (if c.name.isNone && c.headerEnumName.isNone && c.usage.isNone && c.values.isEmpty then some [] else none)", "new": "    (if c.name.isNone && c.headerEnumName.isSome && c.usage.isNone && c.values.isEmpty then some [] else none)", "res": "survived", "err": "", "t": 85}
{"file": "Serialize", "line": 66, "old": "      optLeaf (s%\"value\") id v.value ++", "new": "      optLeaf (s%\"Xalue\") id v.value ++", "res": "killed", "err": "Verif/Lemmas/RoundTrip.lean:parseEnumValue_rt", "t": 13}
{"file": "Graph", "line": 166, "old": "  ((g.outEdges i).filter fun e => g.isElem e.dst && isChildEdge e).map (\u00b7.dst)", "new": "  ((g.outEdges i).filter fun e => g.isElem e.dst || isChildEdge e).map (\u00b7.dst)", "res": "killed", "err": "Verif/Lemmas/WF.lean:elementChildren_edge", "t": 6}
{"file": "Load", "line": 57, "old": "  | _ :: _, [] => false", "new": "  | _ :: _, [] => true", "res": "killed", "err": "Verif/Props/Misc.lean:tupleLe_spec", "t": 3}
{"file": "Serialize", "line": 93, "old": "    (if c.writeAsRead.isNone && c.useEnumeratedValues.isNone && c.range.isNone then some [] else none) []", "new": "    (if c.writeAsRead.isNone && c.useEnumeratedValues.isNone && c.range.isSome then some [] else none) []", "res": "survived", "err": "", "t": 89}
{"file": "Finalize", "line": 211, "old": "  if lower r.name = s%\"reserved\" then", "new": "  if lower r.name = s%\"Xeserved\" then", "res": "killed", "err": "Verif/Lemmas/Fin.lean:finalizeRegister_ok", "t": 6}
{"file": "Serialize", "line": 58, "old": "      optLeaf (s%\"sauNumRegions\") intStr c.sauNumRegions ++", "new": "      optLeaf (s%\"XauNumRegions\") intStr c.sauNumRegions ++", "res": "killed", "err": "Verif/Lemmas/RoundTrip.lean:parseCpu_rt", "t": 19}
{"file": "Elem", "line": 78, "old": "    headerStructName := p.headerStructName", "new": "    headerStructName := p.description", "res": "killed", "err": "Verif/Lemmas/MadeInv.lean:periphFrom_step", "t": 23}
{"file": "Py", "line": 181, "old": "  | .negSucc n => '-' :: '0' :: 'x' :: toBase 16 (n + 1)", "new": "  | .negSucc n => '-' :: '0' :: 'x' :: toBase 16 (n)", "res": "killed", "err": "Verif/Lemmas/Digits.lean:pyInt_hexStr0", "t": 10}
{"file": "Serialize", "line": 50, "old": "      optLeaf (s%\"icachePresent\") boolStr c.icachePresent ++", "new": "      optLeaf (s%\"XcachePresent\") boolStr c.icachePresent ++", "res": "killed", "err": "Verif/Lemmas/RoundTrip.lean:parseCpu_rt", "t": 15}
{"file": "Elem", "line": 60, "old": "  sortBy (fun a b => decide (a.offset \u2264 b.offset))", "new": "  sortBy (fun a b => decide (a.offset < b.offset))", "res": "killed", "err": "Verif/Lemmas/MadeInv.lean:processAddressBlocks_isEmpty", "t": 17}
{"file": "Parse", "line": 226, "old": "  let usage \u2190 M.bind (reqText (s%\"usage\") e) (fromVal EnumToken.all EnumToken.val)", "new": "  let usage \u2190 M.bind (reqText (s%\"Xsage\") e) (fromVal EnumToken.all EnumToken.val)", "res": "killed", "err": "Verif/Lemmas/RoundTrip.lean:parseAddressBlock_rt", "t": 19}
{"file": "Resolver", "line": 448, "old": "    | some s => M.pure (some (if s % 8 \u2260 0 then 0 else s))", "new": "    | some s => M.pure (some (if s % 8 = 0 then 0 else s))", "res": "killed", "err": "Verif/Lemmas/Sizes.lean:childSize_ok", "t": 33}
{"file": "Resolver", "line": 292, "old": "  | _ => false", "new": "  | _ => true", "res": "killed", "err": "Verif/Lemmas/InvRun.lean:isEnum_level", "t": 9}
{"file": "Parse", "line": 380, "old": "  let key : Str := if (d.nsmap.lookup (s%\"xs\")).isSome then s%\"xs\" else s%\"xsi\"", "new": "  let key : Str := if (d.nsmap.lookup (s%\"xs\")).isSome then s%\"xsi\" else s%\"xs\"", "res": "killed", "err": "Verif/Lemmas/RoundTrip.lean:parseDevice_rt", "t": 15}
{"file": "Py", "line": 175, "old": "  | .negSucc n => '-' :: natStr (n + 1)", "new": "  | .negSucc n => '-' :: natStr (n - 1)", "res": "killed", "err": "Verif/Lemmas/Digits.lean:intStr_inj", "t": 8}
{"file": "Py", "line": 133, "old": "  else if base = 0 then", "new": "  else if base \u2260 0 then", "res": "killed", "err": "Verif/Lemmas/Digits.lean:unsignedInt_natStr10", "t": 9}
{"file": "Finalize", "line": 213, "old": "  else if r.alternateRegister.isSome && r.alternateGroup.isSome then", "new": "  else if r.alternateRegister.isSome || r.alternateGroup.isSome then", "res": "killed", "err": "Verif/Lemmas/Fin.lean:finalizeRegister_ok", "t": 5}
{"file": "Py", "line": 107, "old": "      if c = '_' then (if us then none else digitsGo base acc true cs)", "new": "      if c = '_' then (if us then (some default) else digitsGo base acc true cs)", "res": "killed", "err": "Verif/Lemmas/Literal.lean:digitsGo_grouped", "t": 32}
{"file": "Serialize", "line": 136, "old": "      optLeaf (s%\"readAction\") ReadAction.val f.readAction ++", "new": "      optLeaf (s%\"XeadAction\") ReadAction.val f.readAction ++", "res": "killed", "err": "Verif/Lemmas/RoundTrip.lean:parseField_rt", "t": 13}
{"file": "Serialize", "line": 94, "old": "    (optLeaf (s%\"writeAsRead\") boolStr c.writeAsRead ++", "new": "    (optLeaf (s%\"XriteAsRead\") boolStr c.writeAsRead ++", "res": "killed", "err": "Verif/Lemmas/RoundTrip.lean:parseWriteConstraint_rt", "t": 13}
{"file": "Finalize", "line": 243, "old": "          let e := maxList (y.baseAddress + y.extent - 1) (ys.map fun z => z.baseAddress + z.extent - 1)", "new": "          let e := maxList (y.baseAddress + y.extent - 1) (ys.map fun z => z.baseAddress + z.extent + 1)", "res": "killed", "err": "Verif/Lemmas/Fin.lean:finalizeRC_clu", "t": 4}
{"file": "Enum", "line": 40, "old": "  else if (s%\"0x\").isPrefixOf s then", "new": "  else if (s%\"Xx\").isPrefixOf s then", "res": "killed", "err": "Verif/Lemmas/EnumConv.lean:convert_dec", "t": 10}
{"file": "Elem", "line": 28, "old": "    itcmPresent := c.itcmPresent.getD false", "new": "    itcmPresent := c.itcmPresent.getD true", "res": "killed", "err": "Verif/Props/Misc.lean:cpuOf", "t": 28}
{"file": "Dim", "line": 134, "old": "  let display := if ty = .register then orIfNone pdisp bdisp else none", "new": "  let display := if ty \u2260 .register then orIfNone pdisp bdisp else none", "res": "killed", "err": "Verif/Lemmas/DimInv.lean:extractDim_ok", "t": 11}
{"file": "Py", "line": 206, "old": "      else if b.toNat < a.toNat then false", "new": "      else if b.toNat \u2264 a.toNat then false", "res": "killed", "err": "Verif/Lemmas/Basic.lean:strLe_total", "t": 5}
{"file": "Graph", "line": 162, "old": "  ((g.inEdges i).filter fun e => g.isElem e.src && isChildEdge e).map (\u00b7.src)", "new": "  ((g.inEdges i).dropWhile fun e => g.isElem e.src && isChildEdge e).map (\u00b7.src)", "res": "killed", "err": "Verif/Lemmas/WF.lean:elementParents_edge", "t": 6}
{"file": "Parse", "line": 40, "old": "  else if v = s%\"0\" then M.pure false", "new": "  else if v = s%\"0\" then M.pure true", "res": "killed", "err": "Verif/Lemmas/Says.lean:gives_toBool", "t": 23}
{"file": "Py", "line": 97, "old": "  if 48 \u2264 n \u2227 n \u2264 57 then some (n - 48)", "new": "  if 48 \u2264 n \u2227 n < 57 then some (n - 48)", "res": "killed", "err": "Verif/Lemmas/EnumConv.lean:isDec_digitVal", "t": 20}
{"file": "Serialize", "line": 31, "old": "  .mk (s%\"region\") none", "new": "  .mk (s%\"Xegion\") none", "res": "killed", "err": "Verif/Lemmas/RoundTrip.lean:parseSauConfig_rt", "t": 13}
{"file": "Finalize", "line": 288, "old": "      (if b.offset < a.offset + a.size then [Warn.addressBlockOverlap b.offset a.offset] else [])", "new": "      (if b.offset \u2264 a.offset + a.size then [Warn.addressBlockOverlap b.offset a.offset] else [])", "res": "killed", "err": "Verif/Lemmas/ValPeriph.lean:mem_addressBlockWarns", "t": 54}
{"file": "Elem", "line": 39, "old": "  { dim := orIfNone p.dim (b.bind (\u00b7.dim))", "new": "  { dim := orIfNone p.dimIncrement (b.bind (\u00b7.dim))", "res": "killed", "err": "Verif/Lemmas/Heads.lean:mergeDim_none", "t": 38}
{"file": "Finalize", "line": 108, "old": "def altFuel (lookup : AltLookup) : Nat := (2 * lookup.length + 2) * (lookup.length + 2) + 1", "new": "def altFuel (lookup : AltLookup) : Nat := (2 * lookup.length + 2) * (lookup.length + 2) - 1", "res": "killed", "err": "Verif/Lemmas/Alt.lean:allowedAlternates_spec", "t": 4}
{"file": "Py", "line": 141, "old": "    | '0' :: t =>", "new": "    | '1' :: t =>", "res": "killed", "err": "Verif/Lemmas/Digits.lean:unsignedInt_natStr0", "t": 8}
{"file": "Dim", "line": 92, "old": "  | none => false", "new": "  | none => true", "res": "killed", "err": "Verif/Lemmas/Accept.lean:extractDim_total", "t": 69}
{"file": "Py", "line": 48, "old": "  (0x2000 \u2264 n && n \u2264 0x200A) || n == 0x2028 || n == 0x2029 || n == 0x202F || n == 0x205F || n == 0x3000", "new": "  (0x2000 \u2264 n && n \u2264 0x200A) || n == 0x2028 || n == 0x2029 || n == 0x202F || n == 0x205F && n == 0x3000", "res": "killed", "err": "Verif/Lemmas/Text.lean:isSpace_eq", "t": 8}
{"file": "Enum", "line": 68, "old": "      | none => M.pure [none])", "new": "      | none => M.pure [(some default)])", "res": "killed", "err": "Verif/Lemmas/EnumCont.lean:resolveWildcard_spec", "t": 13}
{"file": "Serialize", "line": 186, "old": "  .mk (s%\"peripheral\") none (optAttrib (s%\"derivedFrom\") id p.hd.derivedFrom)", "new": "  .mk (s%\"peripheral\") (some default) (optAttrib (s%\"derivedFrom\") id p.hd.derivedFrom)", "res": "survived", "err": "", "t": 81}
{"file": "Resolver", "line": 486, "old": "    else if conts.length = 2 && !(usages.all fun u => u == .read || u == .write) then M.throw .enumContainer", "new": "    else if conts.length = 2 && !(usages.all fun u => u != .read || u == .write) then M.throw .enumContainer", "res": "killed", "err": "Verif/Lemmas/FinState.lean:finalizeFieldNode_inv", "t": 11}
{"file": "Resolver", "line": 51, "old": "          | .reg r => if r.alternateGroup.isNone then i :: rest else rest", "new": "          | .reg r => if r.alternateGroup.isNone then rest else i :: rest", "res": "killed", "err": "Verif/Lemmas/Lookup.lean:filterAlternates_sub", "t": 4}
