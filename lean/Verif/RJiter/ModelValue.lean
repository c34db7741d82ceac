import Verif.RJiter.Model
import Verif.RJiter.JiterValue

/-!
# Model of `rjiter/src/rjiter.rs`: the wrappers that read or skip a whole value

The `_owned` variants differ in ownership only.
-/

namespace Verif.RJiter

namespace RJ

/-- `known_float`, rjiter.rs lines 95-97. -/
def knownFloat (fuel : Nat) (s : RJ) (pk : Byte) := s.loopUntilSuccess fuel (Jiter.knownNum Jiter.numberTok pk) none true
/-- `known_int`, rjiter.rs lines 102-104. -/
def knownInt (fuel : Nat) (s : RJ) (pk : Byte) := s.loopUntilSuccess fuel (Jiter.knownNum Jiter.numberInt pk) none true
/-- `known_number`, rjiter.rs lines 116-118. -/
def knownNumber (fuel : Nat) (s : RJ) (pk : Byte) := s.loopUntilSuccess fuel (Jiter.knownNum Jiter.numberAny pk) none true
/-- `known_skip`, rjiter.rs lines 136-138. -/
def knownSkip (fuel : Nat) (s : RJ) (pk : Byte) := s.loopUntilSuccess fuel (Jiter.knownSkip pk) none true
/-- `known_value`, rjiter.rs lines 154-156; `known_value_owned`, lines 161-163. -/
def knownValue (fuel : Nat) (s : RJ) (pk : Byte) := s.loopUntilSuccess fuel (Jiter.knownValue pk) none true
/-- `next_float`, rjiter.rs lines 200-202. -/
def nextFloat (fuel : Nat) (s : RJ) := s.loopUntilSuccess fuel (Jiter.nextNum Jiter.numberTok) none true
/-- `next_int`, rjiter.rs lines 207-209. -/
def nextInt (fuel : Nat) (s : RJ) := s.loopUntilSuccess fuel (Jiter.nextNum Jiter.numberInt) none true
/-- `next_number`, rjiter.rs lines 247-249. -/
def nextNumber (fuel : Nat) (s : RJ) := s.loopUntilSuccess fuel (Jiter.nextNum Jiter.numberAny) none true
/-- `next_skip`, rjiter.rs lines 293-295. -/
def nextSkip (fuel : Nat) (s : RJ) := s.loopUntilSuccess fuel Jiter.nextSkip none true
/-- `next_value`, rjiter.rs lines 311-313; `next_value_owned`, lines 318-320. -/
def nextValue (fuel : Nat) (s : RJ) := s.loopUntilSuccess fuel Jiter.nextValue none true

end RJ

end Verif.RJiter
