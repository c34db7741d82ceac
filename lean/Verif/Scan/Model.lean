import Verif.Scan.Matcher

/-!
# Model of `scan_json/src/scan.rs`

`fuel` is handed to every parser call; the main loop has a fuel of its own.
-/

namespace Verif.Scan

open Verif.U8Pool (Pool PRes PoolError)
open Verif.RJiter (RJ Err Res JsonErr Writer)

variable {β : Type}

/-- `?` on the result of a parser call, error.rs lines 70-74. -/
def SRes.ofRes {α : Type} : Res α → SRes α
  | .ok a => .ok a
  | .err e => .err (.rjiter e)
  | .panic => .panic
  | .diverge => .diverge

/-- What is left of a callback for the code behind it: go on, the value is consumed, or leave with a result. -/
inductive After where
  | go
  | consumed
  | leave (r : SRes Empty)
deriving DecidableEq, Repr

/-- Leave with a result of another type. -/
def SRes.cast {α : Type} : SRes Empty → SRes α
  | .err e => .err e
  | .panic => .panic
  | .diverge => .diverge

/-- `if let Some(action) = find_action(..) { match action(rjiter, baton) { .. } }`: scan.rs lines 103-125
(object), 206-220 (key), 254-281 (array), 576-588 (atom). -/
def callAction (cb : Callbacks β) (p : Pseudo) (st : St β) : St β × After :=
  match cb.find p (.of st.pool) st.baton with
  | (b, none) => ({ st with baton := b }, .go)
  | (b, some act) =>
    match act st.rj b with
    | ((rj, b), .op .none) => ({ st with rj := rj, baton := b }, .go)
    | ((rj, b), .op .valueIsConsumed) => ({ st with rj := rj, baton := b }, .consumed)
    | ((rj, b), .op (.error m)) => ({ st with rj := rj, baton := b }, .leave (.err (.action m rj.currentIndex)))
    | ((rj, b), .panic) => ({ st with rj := rj, baton := b }, .leave .panic)
    | ((rj, b), .diverge) => ({ st with rj := rj, baton := b }, .leave .diverge)

/-- Running an end action, scan.rs lines 136-143, 160-171, 322-333: `none` to go on. -/
def runEnd (st : St β) : Option (EndAction β) → St β × Option SErr
  | none => (st, none)
  | some act =>
    match act st.baton with
    | (b, none) => ({ st with baton := b }, none)
    | (b, some m) => ({ st with baton := b }, some (.action m st.rj.currentIndex))

/-- `*context.top_assoc_obj().ok_or_else(..)?`, scan.rs lines 118-122, 173-180, 265-271, 336-342. -/
def topPos (st : St β) (msg : String) : SRes Pos :=
  match st.pool.topAssocObj posLayout with
  | .ok (some bs) =>
    match bs with
    | [b] => .ok (.ofByte b)
    | _ => .panic -- the value has the one byte of its type
  | .ok none => .err (.internal st.rj.currentIndex msg)
  | .err _ => .panic -- `top_assoc_obj` has no error
  | .panic => .panic

/-- The match on the pool's error for a key, scan.rs lines 188-199. -/
def keyPushError (e : PoolError) (position : Nat) : SErr :=
  match e with
  | .sliceLimitExceeded m => .maxNesting position m
  | _ => .internal position "Failed to push key to context pool"

/-- `handle_object` from the call of `next_object_bytes` or `next_key_bytes` on, scan.rs lines 149-222. -/
def handleKey (fuel : Nat) (cb : Callbacks β) (begin : Bool) (st : St β) : St β × SRes Pos :=
  match (if begin then st.rj.nextObjectBytes fuel else st.rj.nextKeyBytes fuel) with
  | (rj, .ok none) =>
    let st := { st with rj := rj }
    match cb.findEnd .object (.of st.pool) st.baton with
    | (b, act) =>
      match runEnd { st with baton := b } act with
      | (st, some e) => (st, .err e)
      | (st, none) => (st, topPos st "Context stack is empty when ending object")
  | (rj, .ok (some key)) =>
    let st := { st with rj := rj }
    match st.pool.pushAssoc posLayout [Pos.objectMiddle.byte] key with
    | (p, .ok _) =>
      match callAction cb .none { st with pool := p } with
      | (st, .go) => (st, .ok .objectBetweenKV)
      | (st, .consumed) => (st, .ok .objectMiddle)
      | (st, .leave r) => (st, r.cast)
    | (p, .err e) => ({ st with pool := p }, .err (keyPushError e st.rj.currentIndex))
    | (p, .panic) => ({ st with pool := p }, .panic)
  | (rj, .err e) => ({ st with rj := rj }, .err (.rjiter e))
  | (rj, .panic) => ({ st with rj := rj }, .panic)
  | (rj, .diverge) => ({ st with rj := rj }, .diverge)

/-- `handle_object`, scan.rs lines 91-223. -/
def handleObject (fuel : Nat) (cb : Callbacks β) (position : Pos) (st : St β) : St β × SRes Pos :=
  if position = .objectBegin then
    match callAction cb .object st with
    | (st, .go) => handleKey fuel cb true st
    | (st, .consumed) => (st, topPos st "Context stack is empty when handling ValueIsConsumed")
    | (st, .leave r) => (st, r.cast)
  else
    match cb.findEnd .none (.of st.pool) st.baton with
    | (b, act) =>
      -- `let _ = context.pop_assoc()`: the popped item is dropped
      match st.pool.popAssoc posLayout with
      | (p, .panic) => ({ st with baton := b, pool := p }, .panic)
      | (p, _) =>
        match runEnd { st with baton := b, pool := p } act with
        | (st, some e) => (st, .err e)
        | (st, none) => handleKey fuel cb false st

/-- `handle_array` from the call of `known_array` or `array_step` on, scan.rs lines 298-345. -/
def handleItem (fuel : Nat) (cb : Callbacks β) (begin : Bool) (st : St β) : St β × SRes (Option Byte × Pos) :=
  match (if begin then st.rj.knownArray fuel else st.rj.arrayStep fuel) with
  | (rj, .ok none) =>
    let st := { st with rj := rj }
    match st.pool.popAssoc posLayout with
    | (p, .ok (some _)) =>
      let st := { st with pool := p }
      match cb.findEnd .array (.of st.pool) st.baton with
      | (b, act) =>
        match runEnd { st with baton := b } act with
        | (st, some e) => (st, .err e)
        | (st, none) =>
          match topPos st "Context stack is empty when ending array" with
          | .ok pos => (st, .ok (none, pos))
          | .err e => (st, .err e)
          | .panic => (st, .panic)
          | .diverge => (st, .diverge)
    | (p, .ok none) =>
      ({ st with pool := p }, .err (.internal st.rj.currentIndex "Context stack is empty when ending array"))
    | (p, _) => ({ st with pool := p }, .panic)
  | (rj, .ok (some c)) => ({ st with rj := rj }, .ok (some c, .arrayMiddle))
  | (rj, .err e) => ({ st with rj := rj }, .err (.rjiter e))
  | (rj, .panic) => ({ st with rj := rj }, .panic)
  | (rj, .diverge) => ({ st with rj := rj }, .diverge)

/-- `handle_array`, scan.rs lines 242-346. -/
def handleArray (fuel : Nat) (cb : Callbacks β) (position : Pos) (st : St β) : St β × SRes (Option Byte × Pos) :=
  if position = .arrayBegin then
    match callAction cb .array st with
    | (st, .go) =>
      match st.pool.pushAssoc posLayout [Pos.arrayMiddle.byte] nameArray with
      | (p, .ok _) => handleItem fuel cb true { st with pool := p }
      | (p, .err _) => ({ st with pool := p }, .err (.maxNesting st.rj.currentIndex p.len))
      | (p, .panic) => ({ st with pool := p }, .panic)
    | (st, .consumed) =>
      match topPos st "Context stack is empty when handling ValueIsConsumed in array" with
      | .ok pos => (st, .ok (none, pos))
      | .err e => (st, .err e)
      | .panic => (st, .panic)
      | .diverge => (st, .diverge)
    | (st, .leave r) => (st, r.cast)
  else handleItem fuel cb false st

/-- `?` for a call whose value is dropped. -/
def dropValue {α : Type} (x : RJ × Res α) : RJ × SRes Unit :=
  (x.1, match x.2 with
    | .ok _ => .ok ()
    | .err e => .err (.rjiter e)
    | .panic => .panic
    | .diverge => .diverge)

/-- `skip_basic_values`, scan.rs lines 351-375. The `Sink` (lines 12-26) is a writer that never fails. -/
def skipBasic (fuel : Nat) (peeked : Byte) (rj : RJ) : RJ × SRes Unit :=
  if peeked = 34 then
    dropValue ((rj.writeLongBytes fuel ⟨[], []⟩).1.1, (rj.writeLongBytes fuel ⟨[], []⟩).2)
  else if peeked = 110 then dropValue (rj.knownNull fuel)
  else if peeked = 116 ∨ peeked = 102 then dropValue (rj.knownBool fuel peeked)
  else
    match rj.nextNumberBytes fuel with
    | (rj, .ok _) => (rj, .ok ())
    | (rj, .err _) => (rj, .err (.unhandledPeek peeked rj.currentIndex))
    | (rj, .panic) => (rj, .panic)
    | (rj, .diverge) => (rj, .diverge)

/-- The loop over the SSE tokens, scan.rs lines 604-608: `some` if one of them was skipped (`ok`) or the call did
not return. -/
def skipSse (fuel : Nat) : List Bytes → RJ → RJ × Option (SRes Unit)
  | [], rj => (rj, none)
  | t :: ts, rj =>
    match rj.knownSkipToken fuel t with
    | (rj, .ok ()) => (rj, some (.ok ()))
    | (rj, .err _) => skipSse fuel ts rj
    | (rj, .panic) => (rj, some .panic)
    | (rj, .diverge) => (rj, some .diverge)

/-- One turn of the main loop ends with the next position or with the result of `scan`. -/
inductive Step where
  | next (p : Pos)
  | done (r : SRes Unit)
deriving DecidableEq, Repr

/-- The end of a turn, when a value is known to come, scan.rs lines 561-614. -/
def onValue (fuel : Nat) (cb : Callbacks β) (opt : Options) (peeked : Byte) (position : Pos) (st : St β) : St β × Step :=
  if peeked = 91 then (st, .next .arrayBegin)
  else if peeked = 123 then (st, .next .objectBegin)
  else
    match callAction cb .atom st with
    | (st, .consumed) => (st, .next position)
    | (st, .leave r) => (st, .done r.cast)
    | (st, .go) =>
      match skipBasic fuel peeked st.rj with
      | (rj, .ok ()) => ({ st with rj := rj }, .next position)
      | (rj, .panic) => ({ st with rj := rj }, .done .panic)
      | (rj, .diverge) => ({ st with rj := rj }, .done .diverge)
      | (rj, .err _) =>
        if position = .top ∨ ((position = .arrayBegin ∨ position = .arrayMiddle) ∧ st.pool.len = 2) then
          match skipSse fuel opt.sseTokens rj with
          | (rj, some (.ok ())) => ({ st with rj := rj }, .next position)
          | (rj, some r) => ({ st with rj := rj }, .done r)
          | (rj, none) => ({ st with rj := rj }, .done (.err (.unhandledPeek peeked rj.currentIndex)))
        else ({ st with rj := rj }, .done (.err (.unhandledPeek peeked rj.currentIndex)))

/-- One turn of the main loop, scan.rs lines 471-614. -/
def turn (fuel : Nat) (cb : Callbacks β) (opt : Options) (position : Pos) (st : St β) : St β × Step :=
  if position = .objectBegin ∨ position = .objectMiddle then
    match handleObject fuel cb position st with
    | (st, .ok p) => (st, .next p)
    | (st, .err e) => (st, .done (.err e))
    | (st, .panic) => (st, .done .panic)
    | (st, .diverge) => (st, .done .diverge)
  else if position = .arrayBegin ∨ position = .arrayMiddle then
    match handleArray fuel cb position st with
    | (st, .ok (some c, p)) =>
      if p = .arrayMiddle then onValue fuel cb opt c .arrayMiddle st
      else (st, .done (.err (.internal st.rj.currentIndex "Unexpected position from handle_array")))
    | (st, .ok (none, p)) => (st, .next p)
    | (st, .err e) => (st, .done (.err e))
    | (st, .panic) => (st, .done .panic)
    | (st, .diverge) => (st, .done .diverge)
  else
    match st.rj.peek fuel with
    | (rj, .ok c) =>
      onValue fuel cb opt c (if position = .objectBetweenKV then .objectMiddle else position) { st with rj := rj }
    | (rj, .err e) =>
      let st := { st with rj := rj }
      if e.type = .json .eofWhileParsingValue then
        if position ≠ .top then (st, .done (.err (.unbalancedJson st.rj.currentIndex)))
        else
          match st.rj.finish fuel with
          | (rj, r) => ({ st with rj := rj }, .done (.ofRes r))
      else (st, .done (.err (.rjiter e)))
    | (rj, .panic) => ({ st with rj := rj }, .done .panic)
    | (rj, .diverge) => ({ st with rj := rj }, .done .diverge)

/-- The main loop, scan.rs lines 465-617; `progressed` is `is_progressed`. -/
def mainLoop (fuel : Nat) (cb : Callbacks β) (opt : Options) : Nat → Bool → Pos → St β → St β × SRes Unit
  | 0, _, _, st => (st, .diverge)
  | n + 1, progressed, position, st =>
    if progressed ∧ opt.stopEarly ∧ position = .top then (st, .ok ())
    else
      match turn fuel cb opt position st with
      | (st, .next p) => mainLoop fuel cb opt n true p st
      | (st, .done r) => (st, r)

/-- `scan`, scan.rs lines 445-618. `turns` bounds the number of turns of the main loop, `fuel` is handed to the
parser calls. -/
def scan (turns fuel : Nat) (cb : Callbacks β) (opt : Options) (st : St β) : St β × SRes Unit :=
  match st.pool.pushAssoc posLayout [Pos.top.byte] nameTop with
  | (p, .ok _) => mainLoop fuel cb opt turns false .top { st with pool := p }
  | (p, .err _) => ({ st with pool := p }, .err (.maxNesting st.rj.currentIndex 0))
  | (p, .panic) => ({ st with pool := p }, .panic)

end Verif.Scan
