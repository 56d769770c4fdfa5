import Verif.Model.Str
/-!
# Model of `src/engine_spec.rs`

A `BTreeMap<String, String>` is the list of its entries in increasing order of the keys (the iteration order). Rust orders strings by
their UTF-8 bytes, which is the order of the code points.
-/

namespace Bkgm.EngineSpec

/-- `Ord for str`: lexicographic by code points. (The key order of the `BTreeMap` in src/engine_spec.rs 15.) -/
def strLt : Str → Str → Bool
  | _, [] => false
  | [], _ :: _ => true
  | a :: s, b :: t => if a.toNat < b.toNat then true else if b.toNat < a.toNat then false else strLt s t

/-- `BTreeMap` contents. (src/engine_spec.rs 15.) -/
abbrev Options := List (Str × Str)

/-- `BTreeMap::insert`. (src/engine_spec.rs 46.) -/
def insert (k v : Str) : Options → Options
  | [] => [(k, v)]
  | (k', v') :: m =>
    if strLt k k' then (k, v) :: (k', v') :: m
    else if strLt k' k then (k', v') :: insert k v m
    else (k, v) :: m

/-- `BTreeMap::get`. (src/engine_spec.rs 15.) -/
def get (k : Str) : Options → Option Str
  | [] => none
  | (k', v) :: m => if k = k' then some v else get k m

/-- `enum EngineSpecError` (src/engine_spec.rs 3-9). -/
inductive Error where
  | invalidSpec (spec : Str)
  | invalidOverride (part spec : Str)
  deriving DecidableEq

/-- `struct EngineSpec` (src/engine_spec.rs 11-16). -/
structure Spec where
  aliasName : Str
  version : Option Str
  options : Options
  deriving DecidableEq

/-- `"engine."`. (src/engine_spec.rs 41-44, 74.) -/
def enginePrefix : Str := "engine.".toList

/-- `parse_alias_version` (src/engine_spec.rs 83-90). -/
def parseAliasVersion (head : Str) : Str × Option Str :=
  match splitOnce '@' head with
  | some (aliasName, version) => if trim version = [] then (trim head, none) else (trim aliasName, some (trim version))
  | none => (trim head, none)

/-- The key of an override (src/engine_spec.rs 41-45). -/
def optionKey (k : Str) : Str :=
  if (stripPrefix enginePrefix (trim k)).isSome then trim k else enginePrefix ++ trim k

/-- The loop over the overrides (src/engine_spec.rs 30-47). -/
def parseOverrides (spec : Str) : List Str → Options → Except Error Options
  | [], m => .ok m
  | part :: rest, m =>
    if trim part = [] then parseOverrides spec rest m
    else match splitOnce '=' (trim part) with
      | none => .error (.invalidOverride (trim part) spec)
      | some (k, v) => parseOverrides spec rest (insert (optionKey k) (trim v) m)

/-- The head and the overrides text of a spec (src/engine_spec.rs 19-22). -/
def splitSpec (spec : Str) : Str × Option Str :=
  match splitOnce ':' spec with
  | some (a, b) => (trim a, some (trim b))
  | none => (trim spec, none)

/-- `parse_engine_spec` (src/engine_spec.rs 18-55). -/
def parse (spec : Str) : Except Error Spec :=
  let (head, overrides) := splitSpec spec
  let (aliasName, version) := parseAliasVersion head
  if aliasName = [] then .error (.invalidSpec spec)
  else
    match overrides with
    | none => .ok ⟨aliasName, version, []⟩
    | some raw =>
      if raw = [] then .ok ⟨aliasName, version, []⟩
      else match parseOverrides spec (splitChar ',' raw) [] with
        | .error e => .error e
        | .ok m => .ok ⟨aliasName, version, m⟩

/-- `trim_start_matches("engine.")`: removes the prefix as often as it occurs. The first argument bounds the number of rounds. (src/engine_spec.rs 74.) -/
def stripAll : Nat → Str → Str
  | 0, s => s
  | n + 1, s => match stripPrefix enginePrefix s with
    | some r => stripAll n r
    | none => s

/-- `k.trim_start_matches("engine.")` (src/engine_spec.rs 74). -/
def shortKey (k : Str) : Str := stripAll k.length k

/-- One shown option (src/engine_spec.rs 65, 68, 74). -/
def showOption (k v : Str) : Str := k ++ '=' :: v

/-- The list `shown` (src/engine_spec.rs 63-75). -/
def shown (m : Options) : List Str :=
  (match get "engine.ply".toList m with | some v => [showOption "ply".toList v] | none => []) ++
  (match get "engine.top_k".toList m with | some v => [showOption "top_k".toList v] | none => []) ++
  (m.filter fun (k, _) => !(k == "engine.ply".toList || k == "engine.top_k".toList)).map fun (k, v) => showOption (shortKey k) v

/-- Alias and version in the formatted text (src/engine_spec.rs 58-62). -/
def base (name : Str) : Option Str → Str
  | some v => name ++ '@' :: v
  | none => name

/-- `format_engine_spec` (src/engine_spec.rs 57-81). -/
def format (s : Spec) : Str :=
  if shown s.options = [] then base s.aliasName s.version
  else base s.aliasName s.version ++ ':' :: join [','] (shown s.options)

end Bkgm.EngineSpec
