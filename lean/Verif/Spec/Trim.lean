import Verif.Model.Proc
import Verif.Spec.Text
/-
What becomes of resolved elements in the processed device, and which warnings account for the ones that are ignored.
-/
namespace Svd.Spec

/-- The warnings saying that a resolved element is ignored. -/
def SaysIgnored : Warn → Bool
  | .peripheralEmpty _ | .peripheralBadSize _ | .regClusterBadSize _ | .clusterEmpty _ => true
  | .registerReserved | .fieldReserved | .enumOutOfRange _ _ => true
  | _ => false

/-- Enumerated values: kept with name and value, or ignored with one warning each. -/
inductive TrimValues : List IEnumValue → List EnumValue → List Warn → Prop
  | nil : TrimValues [] [] []
  | keep {v v' vs vs' ws} : v'.name = v.name → v.value = some v'.value → TrimValues vs vs' ws →
      TrimValues (v :: vs) (v' :: vs') ws
  | drop {v x vs vs' ws} : v.value = some x → TrimValues vs vs' ws → TrimValues (v :: vs) vs' (.enumOutOfRange v.name x :: ws)

/-- Containers of enumerated values: all kept. -/
inductive TrimConts : List IEnumContainer → List EnumContainer → List Warn → Prop
  | nil : TrimConts [] [] []
  | keep {c c' cs cs' w ws} : TrimValues c.values c'.values w → c'.name = c.name → c'.usage = c.usage →
      TrimConts cs cs' ws → TrimConts (c :: cs) (c' :: cs') (w ++ ws)

/-- Fields: kept, or ignored because of the name. -/
inductive TrimFields : List IField → List Field → List Warn → Prop
  | nil : TrimFields [] [] []
  | keep {f f' fs fs' cs w ws} : f'.name = f.hd.name → f'.lsb = f.hd.lsb → f'.msb = f.hd.msb →
      TrimConts f.containers cs w → f'.containers.Perm cs → TrimFields fs fs' ws → TrimFields (f :: fs) (f' :: fs') (w ++ ws)
  | drop {f fs fs' ws} : lowerText f.hd.name = s%"reserved" → TrimFields fs fs' ws →
      TrimFields (f :: fs) fs' (.fieldReserved :: ws)

mutual
/-- A register or cluster: kept, or ignored with one warning of its own (a cluster also when nothing is left of it). -/
inductive TrimRC : IRC → Option RC → List Warn → Prop
  | register {r fs r' gs ws} : r'.name = r.name → r'.addressOffset = r.addressOffset → TrimFields fs gs ws →
      r'.fields.Perm gs → TrimRC (.reg r fs) (some (.reg r')) ws
  | registerSize {r fs} : TrimRC (.reg r fs) none [.regClusterBadSize r.name]
  | registerReserved {r fs} : lowerText r.name = s%"reserved" → TrimRC (.reg r fs) none [.registerReserved]
  | cluster {c ch c' ys raw ws} : c'.name = c.name → c'.addressOffset = c.addressOffset → TrimRCs ch raw ws →
      ys.Perm raw → TrimRC (.clu c ch) (some (.clu c' ys)) ws
  | clusterSize {c ch} : TrimRC (.clu c ch) none [.regClusterBadSize c.name]
  | clusterEmpty {c ch ws} : TrimRCs ch [] ws → TrimRC (.clu c ch) none (ws ++ [.clusterEmpty c.name])
/-- The same for lists. -/
inductive TrimRCs : List IRC → List RC → List Warn → Prop
  | nil : TrimRCs [] [] []
  | keep {x y xs ys w ws} : TrimRC x (some y) w → TrimRCs xs ys ws → TrimRCs (x :: xs) (y :: ys) (w ++ ws)
  | drop {x xs ys w ws} : TrimRC x none w → TrimRCs xs ys ws → TrimRCs (x :: xs) ys (w ++ ws)
end

/-- Peripherals: kept, or ignored with one warning of their own after those for their contents. -/
inductive TrimPeripherals : List IPeripheral → List Peripheral → List Warn → Prop
  | nil : TrimPeripherals [] [] []
  | keep {p q ps qs raw w ws} : q.name = p.hd.name → q.baseAddress = p.hd.baseAddress → TrimRCs p.rcs raw w →
      q.rcs.Perm raw → TrimPeripherals ps qs ws → TrimPeripherals (p :: ps) (q :: qs) (w ++ ws)
  | empty {p ps qs w ws} : TrimRCs p.rcs [] w → TrimPeripherals ps qs ws →
      TrimPeripherals (p :: ps) qs (w ++ [.peripheralEmpty p.hd.name] ++ ws)
  | size {p ps qs raw w ws} : TrimRCs p.rcs raw w → TrimPeripherals ps qs ws →
      TrimPeripherals (p :: ps) qs (w ++ [.peripheralBadSize p.hd.name] ++ ws)

/-- The paths of names of the enumerated values, fields, clusters, registers of a resolved tree. -/
def iValuePaths (pre : List Str) (f : IField) : List (List Str) :=
  f.containers.flatMap fun c => c.values.map fun v => pre ++ [v.name]
def iFieldPaths (pre : List Str) (fs : List IField) : List (List Str) :=
  fs.flatMap fun f => (pre ++ [f.hd.name]) :: iValuePaths (pre ++ [f.hd.name]) f
mutual
def iPaths (pre : List Str) : IRC → List (List Str)
  | .reg r fs => (pre ++ [r.name]) :: iFieldPaths (pre ++ [r.name]) fs
  | .clu c ch => (pre ++ [c.name]) :: iPathsL (pre ++ [c.name]) ch
def iPathsL (pre : List Str) : List IRC → List (List Str)
  | [] => []
  | x :: xs => iPaths pre x ++ iPathsL pre xs
end
/-- All elements of the resolved peripherals. -/
def resolvedPaths (ps : List IPeripheral) : List (List Str) :=
  ps.flatMap fun p => [p.hd.name] :: iPathsL [p.hd.name] p.rcs

/-- The same for a processed tree. -/
def valuePaths (pre : List Str) (f : Field) : List (List Str) :=
  f.containers.flatMap fun c => c.values.map fun v => pre ++ [v.name]
def fieldPaths (pre : List Str) (fs : List Field) : List (List Str) :=
  fs.flatMap fun f => (pre ++ [f.name]) :: valuePaths (pre ++ [f.name]) f
mutual
def pathsRC (pre : List Str) : RC → List (List Str)
  | .reg r => (pre ++ [r.name]) :: fieldPaths (pre ++ [r.name]) r.fields
  | .clu c ch => (pre ++ [c.name]) :: pathsRCs (pre ++ [c.name]) ch
def pathsRCs (pre : List Str) : List RC → List (List Str)
  | [] => []
  | x :: xs => pathsRC pre x ++ pathsRCs pre xs
end
/-- All elements of the processed peripherals. -/
def processedPaths (ps : List Peripheral) : List (List Str) :=
  ps.flatMap fun p => [p.name] :: pathsRCs [p.name] p.rcs

end Svd.Spec
