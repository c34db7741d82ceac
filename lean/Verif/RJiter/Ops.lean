import Verif.RJiter.Spec
import Verif.RJiter.ModelValue

/-!
# The calls a client can make on an `RJiter`

For properties about arbitrary sequences of calls. Only the state and the success or failure of a call matter
for them, so the returned value is dropped here; the properties about single calls keep it.
-/

namespace Verif.RJiter

/-- Forget the value. -/
def Res.void {α : Type} : Res α → Res Unit
  | .ok _ => .ok ()
  | .err e => .err e
  | .panic => .panic
  | .diverge => .diverge

/-- A call on an `RJiter`, with its arguments. -/
inductive Op where
  | peek | knownArray | knownBool (pk : Byte) | knownBytes | knownNull | knownObject | knownStr
  | nextArray | arrayStep | nextBool | nextBytes | nextKey | nextKeyBytes | nextNull | nextNumberBytes
  | nextObject | nextObjectBytes | nextStr
  | knownFloat (pk : Byte) | knownInt (pk : Byte) | knownNumber (pk : Byte) | knownSkip (pk : Byte) | knownValue (pk : Byte)
  | nextFloat | nextInt | nextNumber | nextSkip | nextValue
  | finish
  | lookaheadWhile (p : Byte → Bool) | lookaheadN (n : Nat) | skipNBytes (n : Nat) | knownSkipToken (t : Bytes)
  | writeLongBytes (w : Writer) | writeLongStr (w : Writer)

/-- Make the call. -/
def Op.run (fuel : Nat) (s : RJ) : Op → RJ × Res Unit
  | .peek => ((s.peek fuel).1, (s.peek fuel).2.void)
  | .knownArray => ((s.knownArray fuel).1, (s.knownArray fuel).2.void)
  | .knownBool pk => ((s.knownBool fuel pk).1, (s.knownBool fuel pk).2.void)
  | .knownBytes => ((s.knownBytes fuel).1, (s.knownBytes fuel).2.void)
  | .knownNull => ((s.knownNull fuel).1, (s.knownNull fuel).2.void)
  | .knownObject => ((s.knownObject fuel).1, (s.knownObject fuel).2.void)
  | .knownStr => ((s.knownStr fuel).1, (s.knownStr fuel).2.void)
  | .nextArray => ((s.nextArray fuel).1, (s.nextArray fuel).2.void)
  | .arrayStep => ((s.arrayStep fuel).1, (s.arrayStep fuel).2.void)
  | .nextBool => ((s.nextBool fuel).1, (s.nextBool fuel).2.void)
  | .nextBytes => ((s.nextBytes fuel).1, (s.nextBytes fuel).2.void)
  | .nextKey => ((s.nextKey fuel).1, (s.nextKey fuel).2.void)
  | .nextKeyBytes => ((s.nextKeyBytes fuel).1, (s.nextKeyBytes fuel).2.void)
  | .nextNull => ((s.nextNull fuel).1, (s.nextNull fuel).2.void)
  | .nextNumberBytes => ((s.nextNumberBytes fuel).1, (s.nextNumberBytes fuel).2.void)
  | .nextObject => ((s.nextObject fuel).1, (s.nextObject fuel).2.void)
  | .nextObjectBytes => ((s.nextObjectBytes fuel).1, (s.nextObjectBytes fuel).2.void)
  | .nextStr => ((s.nextStr fuel).1, (s.nextStr fuel).2.void)
  | .knownFloat pk => ((s.knownFloat fuel pk).1, (s.knownFloat fuel pk).2.void)
  | .knownInt pk => ((s.knownInt fuel pk).1, (s.knownInt fuel pk).2.void)
  | .knownNumber pk => ((s.knownNumber fuel pk).1, (s.knownNumber fuel pk).2.void)
  | .knownSkip pk => ((s.knownSkip fuel pk).1, (s.knownSkip fuel pk).2.void)
  | .knownValue pk => ((s.knownValue fuel pk).1, (s.knownValue fuel pk).2.void)
  | .nextFloat => ((s.nextFloat fuel).1, (s.nextFloat fuel).2.void)
  | .nextInt => ((s.nextInt fuel).1, (s.nextInt fuel).2.void)
  | .nextNumber => ((s.nextNumber fuel).1, (s.nextNumber fuel).2.void)
  | .nextSkip => ((s.nextSkip fuel).1, (s.nextSkip fuel).2.void)
  | .nextValue => ((s.nextValue fuel).1, (s.nextValue fuel).2.void)
  | .finish => s.finish fuel
  | .lookaheadWhile p => ((s.lookaheadWhile fuel p).1, (s.lookaheadWhile fuel p).2.void)
  | .lookaheadN n => ((s.lookaheadN fuel n).1, (s.lookaheadN fuel n).2.void)
  | .skipNBytes n => ((s.skipNBytes fuel n).1, (s.skipNBytes fuel n).2.void)
  | .knownSkipToken t => s.knownSkipToken fuel t
  | .writeLongBytes w => ((s.writeLongBytes fuel w).1.1, (s.writeLongBytes fuel w).2)
  | .writeLongStr w => ((s.writeLongStr fuel w).1.1, (s.writeLongStr fuel w).2)

/-- The outcomes after which a client may go on: success, and the two "this is not there" answers that by
their documentation consume nothing. -/
inductive Op.Kept : Op → Res Unit → Prop where
  | ok (op : Op) : Op.Kept op (.ok ())
  | noToken (t : Bytes) (x : Nat) : Op.Kept (.knownSkipToken t) (.err ⟨.json .expectedSomeIdent, x⟩)
  | notFinished (x : Nat) : Op.Kept .finish (.err ⟨.json .trailingCharacters, x⟩)

/-- Fuel that is enough for any call. -/
def enoughFuel (s : RJ) (fuel : Nat) : Prop := 2 * s.b.reader.size + 2 ≤ fuel

/-- A sequence of calls, each with an outcome after which the client may go on. -/
inductive History : RJ → List Op → RJ → Prop where
  | nil (s : RJ) : History s [] s
  | cons {s s' s'' : RJ} {op : Op} {ops : List Op} {fuel : Nat} {r : Res Unit} (hf : enoughFuel s fuel)
      (hrun : op.run fuel s = (s', r)) (hk : op.Kept r) (h : History s' ops s'') : History s (op :: ops) s''

/-- Any sequence of calls, whatever their outcomes. -/
inductive Calls : RJ → RJ → Prop where
  | nil (s : RJ) : Calls s s
  | cons {s s'' : RJ} (op : Op) (fuel : Nat) (h : Calls (op.run fuel s).1 s'') : Calls s s''

end Verif.RJiter
