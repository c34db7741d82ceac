import Verif.RJiter.Jiter

/-!
# Model of the jiter 0.8.2 functions that read or skip a whole value

`next_value`, `known_value` (and the `_owned` variants, which differ in ownership only), `next_skip`, `known_skip`,
`next_int`, `next_float`, `next_number` and their `known_*` forms. As `Jiter.lean`, this file is part of the trusted base.

* A number is represented by its text: the conversion of the text to `i64`, `BigInt` or `f64` is not modelled.
* An object is the list of its members in the order of the text (`LazyIndexMap` keeps them all).
* The peek of a `known_*` function is a byte. For `[`, `{`, `"` and the literals the first byte of the data is not looked at,
  as in jiter. A number is read from the data; jiter takes its first byte from the peek, which is the same thing if the
  peek is right.
-/

namespace Verif.RJiter

/-- One jiter call after the other; the second one starts where the first one stopped. -/
def JFn.bind {α β : Type} (f : JFn α) (g : α → JFn β) : JFn β := fun d =>
  match f d with
  | (n, .error e) => (n, .error e)
  | (n, .ok v) =>
    match g v (d.drop n) with
    | (m, .error e) => (n + m, .error ⟨e.type, n + e.index⟩)
    | (m, .ok w) => (n + m, .ok w)

/-- A call that does not look at the data. -/
def JFn.pure {α : Type} (v : α) : JFn α := fun _ => (0, .ok v)

/-- Change the result. -/
def JFn.map {α β : Type} (g : α → β) (f : JFn α) : JFn β := f.bind fun v => .pure (g v)

/-- A call that fails at once. -/
def JFn.fail {α : Type} (e : JsonErr) : JFn α := fun _ => jerr 0 e 0

/-- How the results are put together: `JsonValue` for `known_value`, nothing for `known_skip`. -/
structure Build (α : Type) where
  null : α
  bool : Bool → α
  num : Bytes → α
  str : Bytes → α
  arr : List α → α
  obj : List (Bytes × α) → α

/-- `JsonValue`. -/
inductive JsonValue where
  | null
  | bool (b : Bool)
  | num (text : Bytes)
  | str (s : Bytes)
  | arr (items : List JsonValue)
  | obj (members : List (Bytes × JsonValue))

/-- The constructors of `JsonValue`. -/
def Build.value : Build JsonValue := ⟨.null, .bool, .num, .str, .arr, .obj⟩

/-- Nothing. -/
def Build.unit : Build Unit := ⟨(), fun _ => (), fun _ => (), fun _ => (), fun _ => (), fun _ => ()⟩

namespace Jiter

/-- The length of the sign. -/
def sign : Bytes → Nat
  | c :: _ => if c = 45 then 1 else 0
  | [] => 0

/-- `NumberAny::decode`: an integer part with more than 4300 digits is refused. -/
def numberAny : JFn Bytes := fun d =>
  if 4300 < digits (d.drop (sign d)) then jerr 0 .numberOutOfRange 4300
  else numberTok d

/-- `NumberInt::decode`: as `numberAny`, and a point or an exponent is an error (jiter says which type it expected). -/
def numberInt : JFn Bytes := fun d =>
  let s := sign d
  match needDigit (d.drop s) s with
  | .error (e, i) => jerr 0 e i
  | .ok () =>
    let n := digits (d.drop s)
    if 4300 < n then jerr 0 .numberOutOfRange 4300
    else if d[s]? = some 48 ∧ 1 < n then jerr 0 .invalidNumber (s + 1)
    else match d.drop (s + n) with
      | c :: _ => if c = 46 ∨ c = 101 ∨ c = 69 then (0, .error ⟨.wrongType, 0⟩) else (s + n, .ok (d.take (s + n)))
      | [] => (s + n, .ok (d.take (s + n)))

/-- The decoders: `StringDecoder` and `NumberAny` for `known_value`, `StringDecoderRange` and `NumberRange` for
`known_skip`. -/
structure Decoders where
  str : JFn Bytes
  num : JFn Bytes

section
variable {α : Type} (D : Decoders) (B : Build α)

mutual
/-- `take_value` and `take_value_skip`, at a value that starts with `pk`. `depth` is what is left of the recursion limit:
a container that is not empty needs one more level. The fuel is larger than the number of bytes. -/
def value : Nat → Nat → Byte → JFn α
  | 0, _, _ => .fail .eofWhileParsingValue
  | fuel + 1, depth, pk =>
    if pk = 110 then knownNull.map fun _ => B.null
    else if pk = 116 ∨ pk = 102 then (knownBool pk).map B.bool
    else if pk = 34 then D.str.map B.str
    else if pk = 91 then knownArray.bind fun
      | none => .pure (B.arr [])
      | some c => if depth = 0 then .fail .recursionLimitExceeded else (items fuel (depth - 1) c).map B.arr
    else if pk = 123 then (knownObject D.str).bind fun
      | none => .pure (B.obj [])
      | some k => if depth = 0 then .fail .recursionLimitExceeded else (members fuel (depth - 1) k).map B.obj
    else if pk = 45 ∨ isDigit pk then D.num.map B.num
    else .fail .expectedSomeValue
/-- The items of an array, at an item that starts with `pk`. -/
def items : Nat → Nat → Byte → JFn (List α)
  | 0, _, _ => .fail .eofWhileParsingValue
  | fuel + 1, depth, pk => (value fuel depth pk).bind fun v => arrayStep.bind fun
    | none => .pure [v]
    | some c => (items fuel depth c).map (v :: ·)
/-- The members of an object, behind the colon of the key `key`. -/
def members : Nat → Nat → Bytes → JFn (List (Bytes × α))
  | 0, _, _ => .fail .eofWhileParsingValue
  | fuel + 1, depth, key => peek.bind fun pk => (value fuel depth pk).bind fun v => (nextKey D.str).bind fun
    | none => .pure [(key, v)]
    | some k => (members fuel depth k).map ((key, v) :: ·)
end

/-- jiter's `DEFAULT_RECURSION_LIMIT`. -/
def recursionLimit : Nat := 200

/-- A value that starts with `pk`. -/
def knownWhole (pk : Byte) : JFn α := fun d => value D B (2 * d.length + 1) recursionLimit pk d

/-- A value behind whitespace. -/
def nextWhole : JFn α := fun d => (peek.bind fun pk => value D B (2 * d.length + 1) recursionLimit pk) d

end

/-- The decoders of `known_value`. -/
def Decoders.value : Decoders := ⟨knownStr, numberAny⟩
/-- The decoders of `known_skip`. -/
def Decoders.skip : Decoders := ⟨knownBytes, numberTok⟩

/-- `known_value`, `known_value_owned`. -/
def knownValue (pk : Byte) : JFn JsonValue := knownWhole .value .value pk
/-- `next_value`, `next_value_owned`. -/
def nextValue : JFn JsonValue := nextWhole .value .value
/-- `known_skip`. -/
def knownSkip (pk : Byte) : JFn Unit := knownWhole .skip .unit pk
/-- `next_skip`. -/
def nextSkip : JFn Unit := nextWhole .skip .unit

/-- `known_int`, `known_number`, `known_float`, given the decoder: a peek that does not start a number is an error. -/
def knownNum (num : JFn Bytes) (pk : Byte) : JFn Bytes := fun d =>
  if pk = 45 ∨ isDigit pk then num d else (0, .error ⟨.wrongType, 0⟩)

/-- `next_int`, `next_number`, `next_float`: peek first. -/
def nextNum (num : JFn Bytes) : JFn Bytes := peek.bind (knownNum num)

end Jiter

end Verif.RJiter
