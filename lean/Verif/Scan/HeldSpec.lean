import Verif.Scan.WholeSpec

/-!
# Specification: a value whose strings are in the buffer

`JsonValue<'rj>` holds its strings as `Cow<'rj, str>`. jiter borrows a string without escapes from its data, and makes a copy of
any other string. The data of the jiter inside of an `RJiter` is its working buffer.
-/

namespace Verif.Scan

open Verif.RJiter (JsonValue)

/-- The string with this body, written at `off` of the memory `mem`: a copy `s`, or what is there. -/
def cow (mem : Bytes) (off : Nat) (body s : Bytes) : Bytes := if 92 ∈ body then s else (mem.drop off).take body.length

mutual
/-- The value `x`, whose text `v` was at `off`, as its owner sees it now that the memory is `mem`. -/
def Val.seen (mem : Bytes) (off : Nat) : Val → JsonValue → JsonValue
  | .atom tok, .str s => .str (cow mem (off + 1) (tok.drop 1).dropLast s)
  | .arr w items, .arr l => .arr (items.seen mem (off + (w.length + 1)) l)
  | .obj w members, .obj l => .obj (members.seen mem (off + (w.length + 1)) l)
  | _, x => x
/-- Each item ends with a comma or bracket. -/
def Items.seen (mem : Bytes) (off : Nat) : Items → List JsonValue → List JsonValue
  | .cons b v a more, x :: l => v.seen mem (off + b.length) x :: more.seen mem (off + (b.length + (v.text.length + (a.length + 1)))) l
  | _, l => l
@[inherit_doc Items.seen]
def Members.seen (mem : Bytes) (off : Nat) : Members → List (Bytes × JsonValue) → List (Bytes × JsonValue)
  | .cons b k m m' v a more, (key, x) :: l =>
    (cow mem (off + (b.length + 1)) k key, v.seen mem (off + (b.length + (k.length + (m.length + (m'.length + 3))))) x) ::
      more.seen mem (off + (b.length + (k.length + (m.length + (m'.length + (v.text.length + (a.length + 4))))))) l
  | _, l => l
end

end Verif.Scan
