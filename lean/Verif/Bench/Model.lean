import Verif.Base

/-!
# Model of the converter in the benchmark

`benchmarks/dynamodb/ddb_convert_rust/src/main.rs` converts between JSON and DynamoDB JSON in memory, with `serde_json`. This is the code of the
conversion, lines 179-328. `serde_json` is not in the sandbox: its values are modelled here. What is not modelled: the arguments, the files, how
the input is split into lines, and the text of messages (lines 1-177).
-/

namespace Verif.Bench

/-- `serde_json::Value`. `ν` is `serde_json::Number`. An object is its entries in order of insertion (feature `preserve_order`, Cargo.toml). -/
inductive Value (ν : Type) where
  | null
  | bool (b : Bool)
  | num (n : ν)
  | str (s : Bytes)
  | arr (items : List (Value ν))
  | obj (entries : List (Bytes × Value ν))

/-- `serde_json::Map`. -/
abbrev Map (ν : Type) := List (Bytes × Value ν)

/-- How `serde_json` reads and writes numbers: `str::parse::<Number>` and `Number::to_string`. Nothing is assumed about them here. -/
structure Numbers (ν : Type) where
  parse : Bytes → Option ν
  print : ν → Bytes

/-- `Map::insert`: a key that is there keeps its place and gets the new value. -/
def Map.insert {ν : Type} : Map ν → Bytes → Value ν → Map ν
  | [], k, v => [(k, v)]
  | (k', v') :: m, k, v => if k' = k then (k', v) :: m else (k', v') :: insert m k v

/-- The messages. -/
inductive Fault where
  /-- "Expected JSON object", lines 182 and 207. -/
  | object
  /-- "Expected Item to be an object", line 189. -/
  | item
  /-- "Expected DynamoDB type object", line 228. -/
  | typeObject
  /-- "DynamoDB type object must have exactly one key", line 232. -/
  | oneKey
  /-- "N type must be string", line 240. -/
  | nString
  /-- "Invalid number format", lines 242 and 275. -/
  | number
  /-- "M type must be object", line 250. -/
  | mObject
  /-- "L type must be array", line 261. -/
  | lArray
  /-- "NS type must be array", line 271. -/
  | nsArray
  /-- "NS items must be strings", line 274. -/
  | nsString
  /-- "Unknown DynamoDB type", line 282. -/
  | unknown (key : Bytes)
deriving DecidableEq, Repr

/-- `"S"` and so on. -/
def tS : Bytes := [83]
@[inherit_doc tS] def tN : Bytes := [78]
@[inherit_doc tS] def tBool : Bytes := [66, 79, 79, 76]
@[inherit_doc tS] def tNull : Bytes := [78, 85, 76, 76]
@[inherit_doc tS] def tM : Bytes := [77]
@[inherit_doc tS] def tL : Bytes := [76]
@[inherit_doc tS] def tSS : Bytes := [83, 83]
@[inherit_doc tS] def tNS : Bytes := [78, 83]
@[inherit_doc tS] def tBS : Bytes := [66, 83]
@[inherit_doc tS] def tB : Bytes := [66]
@[inherit_doc tS] def tItem : Bytes := [73, 116, 101, 109]

section
variable {ν : Type} (N : Numbers ν)

/-- The loop over the items of `NS`, lines 273-278. -/
def numbers : List (Value ν) → Except Fault (List (Value ν))
  | [] => .ok []
  | .str s :: l =>
    match N.parse s with
    | none => .error .number
    | some n =>
      match numbers l with
      | .error e => .error e
      | .ok l => .ok (.num n :: l)
  | _ :: _ => .error .nsString

mutual
/-- `unmarshall_value`, lines 225-284. `into_iter().next().unwrap()` is the only entry. -/
def unmarshall : Value ν → Except Fault (Value ν)
  | .obj [(key, v)] =>
    if key = tS then .ok v
    else if key = tN then
      match v with
      | .str s =>
        match N.parse s with
        | none => .error .number
        | some n => .ok (.num n)
      | _ => .error .nString
    else if key = tBool then .ok v
    else if key = tNull then .ok .null
    else if key = tM then
      match v with
      | .obj m =>
        match unmarshallMap [] m with
        | .error e => .error e
        | .ok r => .ok (.obj r)
      | _ => .error .mObject
    else if key = tL then
      match v with
      | .arr l =>
        match unmarshallList l with
        | .error e => .error e
        | .ok r => .ok (.arr r)
      | _ => .error .lArray
    else if key = tSS then .ok v
    else if key = tNS then
      match v with
      | .arr l =>
        match numbers N l with
        | .error e => .error e
        | .ok r => .ok (.arr r)
      | _ => .error .nsArray
    else if key = tBS then .ok v
    else if key = tB then .ok v
    else .error (.unknown key)
  | .obj _ => .error .oneKey
  | _ => .error .typeObject
/-- The loop over the items of `L`, lines 263-266. -/
def unmarshallList : List (Value ν) → Except Fault (List (Value ν))
  | [] => .ok []
  | v :: l =>
    match unmarshall v with
    | .error e => .error e
    | .ok x =>
      match unmarshallList l with
      | .error e => .error e
      | .ok r => .ok (x :: r)
/-- The loop over the entries of `M`, lines 252-255, and of the document, lines 195-199. `result` is the map so far. -/
def unmarshallMap (result : Map ν) : List (Bytes × Value ν) → Except Fault (Map ν)
  | [] => .ok result
  | (k, v) :: m =>
    match unmarshall v with
    | .error e => .error e
    | .ok x => unmarshallMap (result.insert k x) m
end

/-- The wrapper `Item`, lines 185-193. The `remove` is on a map of one entry. -/
def unwrapItem : Map ν → Except Fault (Map ν)
  | [(key, v)] =>
    if key = tItem then
      match v with
      | .obj o => .ok o
      | _ => .error .item
    else .ok [(key, v)]
  | o => .ok o

/-- `from_dynamodb`, lines 179-202. -/
def fromDynamodb : Value ν → Except Fault (Value ν)
  | .obj o =>
    match unwrapItem o with
    | .error e => .error e
    | .ok o =>
      match unmarshallMap N [] o with
      | .error e => .error e
      | .ok r => .ok (.obj r)
  | _ => .error .object

mutual
/-- `marshall_value`, lines 286-328. -/
def marshall : Value ν → Except Fault (Value ν)
  | .null => .ok (.obj [(tNull, .bool true)])
  | .bool b => .ok (.obj [(tBool, .bool b)])
  | .num n => .ok (.obj [(tN, .str (N.print n))])
  | .str s => .ok (.obj [(tS, .str s)])
  | .arr l =>
    match marshallList l with
    | .error e => .error e
    | .ok r => .ok (.obj [(tL, .arr r)])
  | .obj m =>
    match marshallMap [] m with
    | .error e => .error e
    | .ok r => .ok (.obj [(tM, .obj r)])
/-- The loop over the items of an array, lines 310-313. -/
def marshallList : List (Value ν) → Except Fault (List (Value ν))
  | [] => .ok []
  | v :: l =>
    match marshall v with
    | .error e => .error e
    | .ok x =>
      match marshallList l with
      | .error e => .error e
      | .ok r => .ok (x :: r)
/-- The loop over the entries of an object, lines 319-322, and of the document, lines 211-214. -/
def marshallMap (result : Map ν) : List (Bytes × Value ν) → Except Fault (Map ν)
  | [] => .ok result
  | (k, v) :: m =>
    match marshall v with
    | .error e => .error e
    | .ok x => marshallMap (result.insert k x) m
end

/-- `to_dynamodb`, lines 204-223. -/
def toDynamodb (wrapItem : Bool) : Value ν → Except Fault (Value ν)
  | .obj o =>
    match marshallMap N [] o with
    | .error e => .error e
    | .ok r => if wrapItem then .ok (.obj [(tItem, .obj r)]) else .ok (.obj r)
  | _ => .error .object

end

end Verif.Bench
