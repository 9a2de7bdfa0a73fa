import Verif.Model.Py
/-
Enumerations of /repo/src/svdsuite/model/types.py, exceptions, warnings and the exception/warning monad.
-/
namespace Svd

/-- model/types.py:7-36 `CPUNameType`. -/
inductive CPUName
  | CM0 | CM0PLUS | CM0_PLUS | CM1 | CM3 | CM4 | CM7 | CM23 | CM33 | CM35P | CM52 | CM55 | CM85 | SC000 | SC300
  | ARMV8MML | ARMV8MBL | ARMV81MML | CA5 | CA7 | CA8 | CA9 | CA15 | CA17 | CA53 | CA57 | CA72 | SMC1 | OTHER
  deriving DecidableEq, Repr

/-- model/types.py:8-36: the `value` of each member. -/
def CPUName.val : CPUName → Str
  | .CM0 => s%"CM0" | .CM0PLUS => s%"CM0PLUS" | .CM0_PLUS => s%"CM0+" | .CM1 => s%"CM1" | .CM3 => s%"CM3"
  | .CM4 => s%"CM4" | .CM7 => s%"CM7" | .CM23 => s%"CM23" | .CM33 => s%"CM33" | .CM35P => s%"CM35P"
  | .CM52 => s%"CM52" | .CM55 => s%"CM55" | .CM85 => s%"CM85" | .SC000 => s%"SC000" | .SC300 => s%"SC300"
  | .ARMV8MML => s%"ARMV8MML" | .ARMV8MBL => s%"ARMV8MBL" | .ARMV81MML => s%"ARMV81MML"
  | .CA5 => s%"CA5" | .CA7 => s%"CA7" | .CA8 => s%"CA8" | .CA9 => s%"CA9" | .CA15 => s%"CA15" | .CA17 => s%"CA17"
  | .CA53 => s%"CA53" | .CA57 => s%"CA57" | .CA72 => s%"CA72" | .SMC1 => s%"SMC1" | .OTHER => s%"other"

/-- model/types.py:8-36: the identifier of each member (key of `CPUNameType[...]`). -/
def CPUName.ident : CPUName → Str
  | .CM0_PLUS => s%"CM0_PLUS" | .OTHER => s%"OTHER"
  | c => c.val

/-- Members in definition order. -/
def CPUName.all : List CPUName :=
  [.CM0, .CM0PLUS, .CM0_PLUS, .CM1, .CM3, .CM4, .CM7, .CM23, .CM33, .CM35P, .CM52, .CM55, .CM85, .SC000, .SC300,
   .ARMV8MML, .ARMV8MBL, .ARMV81MML, .CA5, .CA7, .CA8, .CA9, .CA15, .CA17, .CA53, .CA57, .CA72, .SMC1, .OTHER]

/-- model/types.py:51-55 `EndianType`. -/
inductive Endian | little | big | selectable | other
  deriving DecidableEq, Repr
def Endian.val : Endian → Str
  | .little => s%"little" | .big => s%"big" | .selectable => s%"selectable" | .other => s%"other"
def Endian.all : List Endian := [.little, .big, .selectable, .other]

/-- model/types.py:65-69 `ProtectionStringType`. -/
inductive Protection | secure | nonSecure | privileged | any
  deriving DecidableEq, Repr
def Protection.val : Protection → Str
  | .secure => s%"s" | .nonSecure => s%"n" | .privileged => s%"p" | .any => s%"any"
def Protection.all : List Protection := [.secure, .nonSecure, .privileged, .any]

/-- model/types.py:79-81 `SauAccessType`. -/
inductive SauAccess | nonSecureCallable | nonSecure
  deriving DecidableEq, Repr
def SauAccess.val : SauAccess → Str
  | .nonSecureCallable => s%"c" | .nonSecure => s%"n"
def SauAccess.all : List SauAccess := [.nonSecureCallable, .nonSecure]

/-- model/types.py:91-96 `AccessType`. -/
inductive Access | readOnly | writeOnly | readWrite | writeOnce | readWriteOnce
  deriving DecidableEq, Repr
def Access.val : Access → Str
  | .readOnly => s%"read-only" | .writeOnly => s%"write-only" | .readWrite => s%"read-write"
  | .writeOnce => s%"writeOnce" | .readWriteOnce => s%"read-writeOnce"
def Access.all : List Access := [.readOnly, .writeOnly, .readWrite, .writeOnce, .readWriteOnce]

/-- model/types.py:119-122 `EnumeratedTokenType`. -/
inductive EnumToken | registers | buffer | reserved
  deriving DecidableEq, Repr
def EnumToken.val : EnumToken → Str
  | .registers => s%"registers" | .buffer => s%"buffer" | .reserved => s%"reserved"
def EnumToken.all : List EnumToken := [.registers, .buffer, .reserved]

/-- model/types.py:132-148 `DataTypeType`. -/
inductive DataType
  | u8 | u16 | u32 | u64 | i8 | i16 | i32 | i64 | u8p | u16p | u32p | u64p | i8p | i16p | i32p | i64p
  deriving DecidableEq, Repr
def DataType.val : DataType → Str
  | .u8 => s%"uint8_t" | .u16 => s%"uint16_t" | .u32 => s%"uint32_t" | .u64 => s%"uint64_t"
  | .i8 => s%"int8_t" | .i16 => s%"int16_t" | .i32 => s%"int32_t" | .i64 => s%"int64_t"
  | .u8p => s%"uint8_t *" | .u16p => s%"uint16_t *" | .u32p => s%"uint32_t *" | .u64p => s%"uint64_t *"
  | .i8p => s%"int8_t *" | .i16p => s%"int16_t *" | .i32p => s%"int32_t *" | .i64p => s%"int64_t *"
def DataType.all : List DataType :=
  [.u8, .u16, .u32, .u64, .i8, .i16, .i32, .i64, .u8p, .u16p, .u32p, .u64p, .i8p, .i16p, .i32p, .i64p]

/-- model/types.py:158-167 `ModifiedWriteValuesType`. -/
inductive ModWrite
  | oneToClear | oneToSet | oneToToggle | zeroToClear | zeroToSet | zeroToToggle | clear | set | modify
  deriving DecidableEq, Repr
def ModWrite.val : ModWrite → Str
  | .oneToClear => s%"oneToClear" | .oneToSet => s%"oneToSet" | .oneToToggle => s%"oneToToggle"
  | .zeroToClear => s%"zeroToClear" | .zeroToSet => s%"zeroToSet" | .zeroToToggle => s%"zeroToToggle"
  | .clear => s%"clear" | .set => s%"set" | .modify => s%"modify"
def ModWrite.all : List ModWrite :=
  [.oneToClear, .oneToSet, .oneToToggle, .zeroToClear, .zeroToSet, .zeroToToggle, .clear, .set, .modify]

/-- model/types.py:177-181 `ReadActionType`. -/
inductive ReadAction | clear | set | modify | modifyExternal
  deriving DecidableEq, Repr
def ReadAction.val : ReadAction → Str
  | .clear => s%"clear" | .set => s%"set" | .modify => s%"modify" | .modifyExternal => s%"modifyExternal"
def ReadAction.all : List ReadAction := [.clear, .set, .modify, .modifyExternal]

/-- model/types.py:191-194 `EnumUsageType`. -/
inductive Usage | read | write | readWrite
  deriving DecidableEq, Repr
def Usage.val : Usage → Str
  | .read => s%"read" | .write => s%"write" | .readWrite => s%"read-write"
def Usage.all : List Usage := [.read, .write, .readWrite]

/-! ### Exceptions -/

/-- The `raise ProcessException(...)` sites of process.py. -/
inductive PErr
  | wrapEnumContainer | wrapLoop | wrapCycle | wrapUnprocessed            -- process.py:99-106
  | invalidBitRange | noFieldPosition                                     -- 453, 456
  | dimNoneName | dimNoneDisplayName                                      -- 489, 499
  | notMultipleOf8                                                        -- 568
  | unsupportedSize                                                       -- 585
  | duplicatePeripheral (name : Str)                                      -- 601
  | noAddressBlocks (name : Str)                                          -- 640
  | duplicateRegCluster (name : Str)                                      -- 798
  | sizeNone (name : Str)                                                 -- 822
  | altRegAndGroup (name : Str)                                           -- 875
  | duplicateField (name : Str)                                           -- 996
  | fieldOverlapRead (a b : Str) | fieldOverlapWrite (a b : Str)          -- 1026, 1033, 1040, 1046
  | enumValueNone                                                         -- 1073
  | dimLtOne | fieldDimArray | peripheralDimList | dimNoMarker            -- 1098, 1102, 1107, 1111
  | dimIndexOrder | dimIndexUnresolvable | dimIndexCount                  -- 1125/1132, 1142, 1145
  | displayNameList | displayNameArray                                    -- 1151, 1169
  | enumFormat | enumValueError                                           -- 1284, 1286
  | multipleDefaults                                                      -- 1333
  deriving DecidableEq, Repr

/-- Exceptions.  Only `process` is a `ProcessException`. -/
inductive Exn
  | process (e : PErr)
  | resolve (site : Nat)            -- ResolveException (not a subclass handled by process.py); resolver.py line
  | enumContainer                   -- EnumeratedValueContainerException
  | loop                            -- LoopException
  | cycle                           -- CycleException
  | unprocessed                     -- UnprocessedNodesException
  | resolverGraph (site : Nat)      -- ResolverGraphException; graph.py line
  | dagWouldCycle                   -- rustworkx.DAGWouldCycle
  | noEdge                          -- rustworkx.NoEdgeBetweenNodes
  | keyError | valueError | typeError | attributeError | notImplemented | overflowError
  | parser                          -- ParserException
  | xmlSyntax (n : Nat)             -- lxml XMLSyntaxError number `n`
  | outOfFuel                       -- model only: the loop did not end within the given fuel
  deriving DecidableEq, Repr

/-! ### Warnings -/

/-- The `warnings.warn` sites; arguments are the values shown in the message. -/
inductive Warn
  -- process.py
  | bitRangeReversed (r : Str)                              -- 446
  | msbLtLsb (name : Str)                                   -- 459
  | dimWithoutMarker (name : Str)                           -- 492
  | peripheralEmpty (name : Str)                            -- 617
  | peripheralUnaligned (name : Str)                        -- 625
  | peripheralBadSize (name : Str)                          -- 632
  | addressBlockOverlap (curr prev : Int)                   -- 690
  | effectiveOverlapNotAllowed (a b : Str)                  -- 709
  | effectiveOverlap (a b : Str)                            -- 720
  | specifiedOverlapNotAllowed (a b : Str)                  -- 730
  | specifiedOverlap (a b : Str)                            -- 741
  | regClusterBadSize (name : Str)                          -- 826
  | regClusterUnaligned (name : Str)                        -- 836
  | clusterEmpty (name : Str)                               -- 852
  | registerReserved                                        -- 868
  | overlapNotAllowed (isReg : Bool) (a b : Str)            -- 917
  | overlap (isReg : Bool) (a b : Str)                      -- 925
  | fieldReserved                                           -- 989
  | fieldExceeds (name : Str) (msb size : Int)              -- 1016
  | enumOutOfRange (name : Str) (value : Int)               -- 1076
  | enumReserved                                            -- 1224
  | enumDuplicateName (name : Str)                          -- 1314
  | enumDuplicateValue (name : Str) (value : Option Int)    -- 1317
  | enumDefaultHasValue (name : Str) (value : Int)          -- 1327
  -- parse.py
  | multipleElements (tag : Str)                            -- parse.py:148
  | stripped (tag : Str)                                    -- parse.py:173, 218
  | noSchemaLocation                                        -- parse.py:232
  | noDescription                                           -- parse.py:249
  | interruptNoValue (name : Str)                           -- parse.py:745
  | unknownAccess (label : Str)                             -- model/types.py:114
  -- util/xml_parse.py
  | fallbackEncoding (enc : Str) (recover : Bool)           -- xml_parse.py:27, 40, 66, 79
  deriving DecidableEq, Repr

/-- Result of a Python call: an exception, or a value together with the warnings issued (in order).
Simplification: warnings issued before an exception are not kept. -/
inductive M (α : Type) where
  | ok (a : α) (ws : List Warn)
  | err (e : Exn)
  deriving DecidableEq, Repr

namespace M
variable {α β : Type}

def pure (a : α) : M α := .ok a []
def throw (e : Exn) : M α := .err e
def warn (w : Warn) : M Unit := .ok () [w]
def bind (x : M α) (f : α → M β) : M β :=
  match x with
  | .err e => .err e
  | .ok a w => match f a with
    | .err e => .err e
    | .ok b w' => .ok b (w ++ w')

/-- `warnings.warn(w)` if `c`. -/
def warnIf (c : Bool) (w : Warn) : M Unit := if c then warn w else pure ()

/-- `if c: raise e`. -/
def raiseIf (c : Bool) (e : Exn) : M Unit := if c then throw e else pure ()

/-- An optional result, `none` meaning the exception `e`. -/
def ofOption (o : Option α) (e : Exn) : M α :=
  match o with
  | some a => pure a
  | none => throw e

/-- `[f(x) for x in xs]` with effects, left to right. -/
def mapM (f : α → M β) : List α → M (List β)
  | [] => pure []
  | x :: xs => bind (f x) fun y => bind (mapM f xs) fun ys => pure (y :: ys)

/-- A loop appending the non-`None` results. -/
def filterMapM (f : α → M (Option β)) : List α → M (List β)
  | [] => pure []
  | x :: xs => bind (f x) fun o => bind (filterMapM f xs) fun ys =>
      pure (match o with | some y => y :: ys | none => ys)

/-- A loop with an accumulator. -/
def foldM (f : β → α → M β) : β → List α → M β
  | b, [] => pure b
  | b, x :: xs => bind (f b x) fun b' => foldM f b' xs

end M

/-- `do`-notation for `M`. -/
instance : Monad M where
  pure := M.pure
  bind := M.bind

end Svd
