import Verif.Scan.PartSpec
import Verif.Scan.TokenDoc

/-!
# Specification vocabulary: the beginning of a document, with SSE tokens

As `Stub.Loose`, but in the place of an item of an array that is a document there can be a token.
-/

namespace Verif.Scan

open Verif.RJiter (Space Spaces Blank Skim Doubled)

mutual
/-- As `Val.Lax`, for the text in front of the stop. `d` is the number of the entries of the context stack at the value. -/
def Stub.Lax (T : List Bytes) (L : Nat) (strict : Prop) (d : Nat) : Stub → Prop
  | .nothing => True
  | .begun _ => True
  | .arr w is => Blank w ∧ is.Lax T L strict (d + 1)
  | .obj w ms => (Blank w ∨ Doubled w ∧ ms.Opens) ∧ ms.Lax T L strict (d + 1)
@[inherit_doc Stub.Lax]
def StubItems.Lax (T : List Bytes) (L : Nat) (strict : Prop) (d : Nat) : StubItems → Prop
  | .closed => True
  | .here b x => Blank b ∧ x.Tight ∧ x.Lax T L strict d
  | .later b v a more => Blank b ∧ v.Tight ∧
      (v.Lax T L strict (d = 2) d ∨ d = 2 ∧ v.Trailing T L ∧ a = [] ∧ (more = .closed ∨ more = .nothing)) ∧ Blank a ∧ more.Lax T L strict d
@[inherit_doc Stub.Lax]
def StubMore.Lax (T : List Bytes) (L : Nat) (strict : Prop) (d : Nat) : StubMore → Prop
  | .nothing => True
  | .closed => True
  | .comma is => is ≠ .closed ∧ is.Lax T L strict d
@[inherit_doc Stub.Lax]
def StubMembers.Lax (T : List Bytes) (L : Nat) (strict : Prop) (d : Nat) : StubMembers → Prop
  | .closed => True
  | .key b k m => Blank b ∧ Skim false k ∧ Spaces m
  | .here b k m m' x => Blank b ∧ Skim false k ∧ Spaces m ∧ Blank m' ∧ x.Lax T L strict d
  | .ended b k m m' v => Blank b ∧ Skim false k ∧ Spaces m ∧ Blank m' ∧ v.Lax T L strict False d
  | .later b k m m' v a more => Blank b ∧ Skim false k ∧ Spaces m ∧ Blank m' ∧ v.Lax T L strict False d ∧ Blank a ∧ more.Lax T L strict d
@[inherit_doc Stub.Lax]
def StubRest.Lax (T : List Bytes) (L : Nat) (strict : Prop) (d : Nat) : StubRest → Prop
  | .nothing => True
  | .closed => True
  | .comma ms => ms ≠ .closed ∧ ms.Lax T L strict d
end

end Verif.Scan
