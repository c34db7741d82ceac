import Verif.RJiter.Numberless
import Verif.RJiter.LongBad
import Verif.Scan.Feed

/-!
# Documents with a syntax error
-/

namespace Verif.Scan

open Verif.RJiter
open Verif.U8Pool (Pool PRes PoolError)

/-! ## Specification -/

mutual
/-- A JSON value up to a byte that cannot be there. `value c`: instead of a value; `key w c`: behind a brace and the space
`w`, instead of a key or the closing brace, or the first byte of something that is no key. -/
inductive Bad where
  | value (c : Byte)
  | arr (w : Bytes) (is : BadItems)
  | obj (w : Bytes) (ms : BadMembers)
  | key (w : Bytes) (c : Byte)
/-- The error is in this item, or behind it. -/
inductive BadItems where
  | here (before : Bytes) (x : Bad)
  | later (before : Bytes) (v : Val) (after : Bytes) (rest : ItemsRest)
/-- `sep c`: instead of a comma or the closing bracket. -/
inductive ItemsRest where
  | sep (c : Byte)
  | comma (is : BadItems)
/-- The error is in the value of this member, or behind it. -/
inductive BadMembers where
  | here (before key mid mid' : Bytes) (x : Bad)
  | later (before key mid mid' : Bytes) (v : Val) (after : Bytes) (rest : MembersRest)
/-- `sep c`: instead of a comma or the closing brace; `key b c`: behind a comma and the space `b`, instead of a key. -/
inductive MembersRest where
  | sep (c : Byte)
  | key (before : Bytes) (c : Byte)
  | comma (ms : BadMembers)
end

mutual
/-- The text before the bad byte. -/
def Bad.lead : Bad → Bytes
  | .value _ => []
  | .arr w is => 91 :: (w ++ is.lead)
  | .obj w ms => 123 :: (w ++ ms.lead)
  | .key w _ => 123 :: w
@[inherit_doc Bad.lead]
def BadItems.lead : BadItems → Bytes
  | .here b x => b ++ x.lead
  | .later b v a rest => b ++ (v.text ++ (a ++ rest.lead))
@[inherit_doc Bad.lead]
def ItemsRest.lead : ItemsRest → Bytes
  | .sep _ => []
  | .comma is => 44 :: is.lead
@[inherit_doc Bad.lead]
def BadMembers.lead : BadMembers → Bytes
  | .here b k m m' x => b ++ 34 :: (k ++ 34 :: (m ++ 58 :: (m' ++ x.lead)))
  | .later b k m m' v a rest => b ++ 34 :: (k ++ 34 :: (m ++ 58 :: (m' ++ (v.text ++ (a ++ rest.lead)))))
@[inherit_doc Bad.lead]
def MembersRest.lead : MembersRest → Bytes
  | .sep _ => []
  | .key b _ => 44 :: b
  | .comma ms => 44 :: ms.lead
end

mutual
/-- The bad byte, and whether it is where a value should start. -/
def Bad.bad : Bad → Byte × Bool
  | .value c => (c, true)
  | .arr _ is => is.bad
  | .obj _ ms => ms.bad
  | .key _ c => (c, false)
@[inherit_doc Bad.bad]
def BadItems.bad : BadItems → Byte × Bool
  | .here _ x => x.bad
  | .later _ _ _ rest => rest.bad
@[inherit_doc Bad.bad]
def ItemsRest.bad : ItemsRest → Byte × Bool
  | .sep c => (c, false)
  | .comma is => is.bad
@[inherit_doc Bad.bad]
def BadMembers.bad : BadMembers → Byte × Bool
  | .here _ _ _ _ x => x.bad
  | .later _ _ _ _ _ _ rest => rest.bad
@[inherit_doc Bad.bad]
def MembersRest.bad : MembersRest → Byte × Bool
  | .sep c => (c, false)
  | .key _ c => (c, false)
  | .comma ms => ms.bad
end

/-- Not space, and not one of the bytes. -/
def NoneOf (l : Bytes) (c : Byte) : Prop := ¬ Space c ∧ c ≠ 12 ∧ c ∉ l

/-- The condition on the start of a broken object that is written behind the space `ws`. -/
def Bad.HeadMeets (R : Rules) (ws : Bytes) : Bad → Prop
  | .obj w (.here b k m _ _) => R.head ws (w ++ b) k m
  | .obj w (.later b k m _ _ _ _) => R.head ws (w ++ b) k m
  | _ => True

/-- Behind the opening quote, the text `t` has a control character in the string, and no backslash before it. -/
def NoText (M : Mode) (t : Bytes) : Prop := ∃ k x y ty off, t = k ++ x :: y ∧ RawBody k ∧ Wrong x y ty off ∧ M.str (k ++ [x])

/-- With the byte `c` in front of the text `t`, there is no value: no value starts with `c`, or it is a literal or a number that is
misspelled, or a string with a control character in it. Numbers are shorter than `L`. -/
def NoValue (M : Mode) (L : Nat) (t : Bytes) (c : Byte) : Prop := Alien c ∨ Wordless (c :: t) ∨ Numberless L (c :: t) ∨ c = 34 ∧ NoText M t

/-- None of the tokens is in front of `t`, and none starts with a quote if `t` does. -/
def Foreign (tokens : List Bytes) (t : Bytes) : Prop := ∀ u ∈ tokens, ¬ u <+: t ∧ (t.head? = some 34 → u.head? ≠ some 34)

/-- What is wrong about the bad byte, with what is behind it. `value`: it cannot be where a value should start. `key l`: it is a quote,
and it cannot be where a key should start; instead of the colon there is none of the bytes `l`. -/
structure Spot where
  value : Byte → Prop
  key : Bytes → Prop

/-- The text `t` is behind the bad byte. -/
def spot (M : Mode) (L : Nat) (t : Bytes) : Spot := ⟨NoValue M L t, NoKey t⟩

mutual
/-- What is before the bad byte meets the rules, and the bad byte cannot be there. -/
def Bad.Meets (R : Rules) (A : Spot) : Bad → Prop
  | .value c => A.value c
  | .arr w is => Spaces w ∧ is.Meets R A
  | .obj w ms => Spaces w ∧ ms.Meets R A
  | .key w c => Spaces w ∧ (NoneOf [34, 123, 125] c ∨ c = 34 ∧ A.key [123])
@[inherit_doc Bad.Meets]
def BadItems.Meets (R : Rules) (A : Spot) : BadItems → Prop
  | .here b x => Spaces b ∧ x.Meets R A ∧ x ≠ .value 93
  | .later b v a rest => Spaces b ∧ v.Meets R ∧ Spaces a ∧ Ends v (a ++ (rest.lead ++ [rest.bad.1])) ∧ rest.Meets R A
@[inherit_doc Bad.Meets]
def ItemsRest.Meets (R : Rules) (A : Spot) : ItemsRest → Prop
  | .sep c => NoneOf [44, 93] c
  | .comma is => is.Meets R A
@[inherit_doc Bad.Meets]
def BadMembers.Meets (R : Rules) (A : Spot) : BadMembers → Prop
  | .here b k m m' x => Spaces b ∧ R.key k m ∧ Spaces m ∧ Spaces m' ∧ x.Meets R A ∧ x.HeadMeets R m'
  | .later b k m m' v a rest => Spaces b ∧ R.key k m ∧ Spaces m ∧ Spaces m' ∧ v.Meets R ∧ v.HeadMeets R m' ∧ Spaces a ∧
      Ends v (a ++ (rest.lead ++ [rest.bad.1])) ∧ rest.Meets R A
@[inherit_doc Bad.Meets]
def MembersRest.Meets (R : Rules) (A : Spot) : MembersRest → Prop
  | .sep c => NoneOf [44, 125] c
  | .key b c => Spaces b ∧ (NoneOf [34, 44, 125] c ∨ c = 34 ∧ A.key [44, 125])
  | .comma ms => ms.Meets R A
end

mutual
/-- If the bad byte is where tokens are skipped, at the top level or as an item of a top-level array, it starts no token.
`n` is the number of names in the path, `skips`: tokens are skipped here. -/
def Bad.Clear (noToken : Prop) (skips : Prop) (n : Nat) : Bad → Prop
  | .value _ => skips → noToken
  | .arr _ is => is.Clear noToken (n + 1)
  | .obj _ ms => ms.Clear noToken n
  | .key _ _ => True
@[inherit_doc Bad.Clear]
def BadItems.Clear (noToken : Prop) (n : Nat) : BadItems → Prop
  | .here _ x => x.Clear noToken (n = 2) n
  | .later _ _ _ rest => rest.Clear noToken n
@[inherit_doc Bad.Clear]
def ItemsRest.Clear (noToken : Prop) (n : Nat) : ItemsRest → Prop
  | .sep _ => True
  | .comma is => is.Clear noToken n
@[inherit_doc Bad.Clear]
def BadMembers.Clear (noToken : Prop) (n : Nat) : BadMembers → Prop
  | .here _ _ _ _ x => x.Clear noToken False (n + 1)
  | .later _ _ _ _ _ _ rest => rest.Clear noToken n
@[inherit_doc Bad.Clear]
def MembersRest.Clear (noToken : Prop) (n : Nat) : MembersRest → Prop
  | .sep _ => True
  | .key _ _ => True
  | .comma ms => ms.Clear noToken n
end

variable {β : Type}

/-- A client that does not touch the parser: the effect of its callbacks on its state, and the error they return, if any. -/
structure Observer (β : Type) where
  start : Pseudo → List Bytes → β → β × Option String
  finish : Pseudo → List Bytes → β → β × Option String

def Observer.handler (O : Observer β) : Handler β where
  start p path _ b := match O.start p path b with
    | (b, none) => (b, .none)
    | (b, some m) => (b, .error m)
  finish := O.finish

/-- A start callback; go on with `inner` if it returns no error. -/
def Observer.open (O : Observer β) (p : Pseudo) (path : List Bytes) (inner : β → Out β) (b : β) : Out β :=
  match O.start p path b with
  | (b, none) => inner b
  | (b, some m) => .stop b (.action m)

/-- Put a key on the stack; go on with `inner` if there is room. -/
def Room.key (R : Room) (path : List Bytes) (k : Bytes) (inner : β → Out β) (b : β) : Out β :=
  if R.Fits path k then inner b
  else if R.max ≤ path.length then .stop b (.deep R.max)
  else .stop b .keyTooLong

mutual
/-- What scanning a broken value should do up to the bad byte. -/
def Bad.scan (O : Observer β) (R : Room) (path : List Bytes) : Bad → β → Out β
  | .value _ => O.open .atom path .done
  | .arr _ is => O.open .array path fun b =>
      if R.Fits path nameArray then is.scan O R (nameArray :: path) b else .stop b (.deep path.length)
  | .obj _ ms => O.open .object path (ms.scan O R path)
  | .key _ _ => O.open .object path .done
@[inherit_doc Bad.scan]
def BadItems.scan (O : Observer β) (R : Room) (path : List Bytes) : BadItems → β → Out β
  | .here _ x => x.scan O R path
  | .later _ v _ rest => fun b => (v.scan O.handler R path b).bind (rest.scan O R path)
@[inherit_doc Bad.scan]
def ItemsRest.scan (O : Observer β) (R : Room) (path : List Bytes) : ItemsRest → β → Out β
  | .sep _ => .done
  | .comma is => is.scan O R path
@[inherit_doc Bad.scan]
def BadMembers.scan (O : Observer β) (R : Room) (path : List Bytes) : BadMembers → β → Out β
  | .here _ k _ _ x => R.key path k (O.open .none (k :: path) (x.scan O R (k :: path)))
  | .later _ k _ _ v _ rest => R.key path k fun b =>
      ((O.open .none (k :: path) (v.scan O.handler R (k :: path)) b).bind (O.handler.end .none (k :: path))).bind (rest.scan O R path)
@[inherit_doc Bad.scan]
def MembersRest.scan (O : Observer β) (R : Room) (path : List Bytes) : MembersRest → β → Out β
  | .sep _ => .done
  | .key _ _ => .done
  | .comma ms => ms.scan O R path
end

/-- The error for the bad byte `bad.1` at `position`. Inside of a string, some other position is reported. -/
def Reports (bad : Byte × Bool) (position : Nat) (e : SErr) : Prop :=
  match bad.2 with
  | true => ∃ n, e = .unhandledPeek bad.1 (position + n) ∧ (bad.1 ≠ 34 → n = 0)
  | false => ∃ er : Err, e = .rjiter er ∧ ∀ kd, er.type ≠ .io kd

/-! ## The callbacks -/

/-- The callbacks do what the observer says, and return `None` or an error. -/
structure Watches (cb : Callbacks β) (O : Observer β) : Prop where
  start : ∀ (p : Pseudo) (path : List Bytes) (b : β) (s : RJ),
    match cb.find p ⟨path, path.length⟩ b with
    | (b', none) => O.start p path b = (b', none)
    | (b', some act) =>
      match act s b' with
      | ((s', b''), .op .none) => s' = s ∧ O.start p path b = (b'', none)
      | ((_, b''), .op (.error m)) => O.start p path b = (b'', some m)
      | _ => False
  finish : ∀ (p : Pseudo) (path : List Bytes) (b : β),
    (match cb.findEnd p ⟨path, path.length⟩ b with
      | (b', none) => (b', none)
      | (b', some act) => act b') = O.finish p path b

theorem Watches.implements {cb : Callbacks β} {O : Observer β} (h : Watches cb O) (M : Mode) (L F : Nat) :
    Implements cb O.handler (Inv M L F) (rules M L) := by
  refine ⟨?_, h.finish⟩
  intro p path v b s ws t hi _ _ _ _ _ _ _
  have hx := h.start p path b s
  simp only [Observer.handler]
  rcases hf : cb.find p ⟨path, path.length⟩ b with ⟨b', act⟩
  rw [hf] at hx
  cases act with
  | none => simp only at hx ⊢; rw [hx]
  | some act =>
    simp only at hx ⊢
    rcases ha : act s b' with ⟨⟨s', b''⟩, o⟩
    rw [ha] at hx
    cases o with
    | op o =>
      cases o with
      | none =>
        simp only at hx ⊢
        obtain ⟨rfl, hx⟩ := hx
        rw [hx]
        exact ⟨rfl, hi, ⟨0, Nat.zero_le _, .refl hi.sync⟩, fun h => ⟨h, rfl⟩⟩
      | valueIsConsumed => exact hx.elim
      | error m => simp only at hx ⊢; rw [hx]
    | panic => exact hx.elim
    | diverge => exact hx.elim

section
variable {F : Nat} {cb : Callbacks β} {opt : Options} {O : Observer β} {M : Mode} {L : Nat} {R : Room}

theorem callAction_watch (hW : Watches cb O) {p : Pseudo} {st : St β} {l : List (Pos × Bytes)} (hst : Holds st.pool R l) :
    match O.start p (names l) st.baton with
    | (b, none) => callAction cb p st = ({ st with baton := b }, .go)
    | (b, some m) => ∃ s', callAction cb p st = ({ st with rj := s', baton := b }, .leave (.err (.action m s'.currentIndex))) := by
  have hx := hW.start p (names l) st.baton st.rj
  unfold callAction
  rw [hst.ctx]
  rcases hf : cb.find p ⟨names l, (names l).length⟩ st.baton with ⟨b', act⟩
  rw [hf] at hx
  cases act with
  | none => simp only at hx ⊢; rw [hx]
  | some act =>
    simp only at hx ⊢
    rcases ha : act st.rj b' with ⟨⟨s', b''⟩, o⟩
    rw [ha] at hx
    cases o with
    | op o =>
      cases o with
      | none => simp only at hx ⊢; obtain ⟨rfl, hx⟩ := hx; rw [hx]
      | valueIsConsumed => exact hx.elim
      | error m => simp only at hx ⊢; rw [hx]; exact ⟨s', rfl⟩
    | panic => exact hx.elim
    | diverge => exact hx.elim

/-! ## Turns that fail -/

theorem handleItem_fails {begin : Bool} {st : St β} {rj : RJ} {e : Err}
    (h : (if begin then st.rj.knownArray F else st.rj.arrayStep F) = (rj, .err e)) :
    wrapItem F cb opt (handleItem F cb begin st) = ({ st with rj := rj }, .done (.err (.rjiter e))) := by
  unfold handleItem
  rw [h]
  rfl

theorem handleKey_fails {begin : Bool} {st : St β} {rj : RJ} {e : Err}
    (h : (if begin then st.rj.nextObjectBytes F else st.rj.nextKeyBytes F) = (rj, .err e)) :
    wrap (handleKey F cb begin st) = ({ st with rj := rj }, .done (.err (.rjiter e))) := by
  unfold handleKey
  rw [h]
  rfl

/-- The run from `x` ends with the error for the bad byte, or with an earlier one. -/
def FailsAt (F : Nat) (cb : Callbacks β) (opt : Options) (x : St β × Step) (bound : Nat) (out : Out β) (bad : Byte × Bool) (position : Nat) :
    Prop :=
  match out with
  | .done b => ∃ st e k, k ≤ bound ∧ Leads F cb opt x (st, .done (.err e)) k ∧ st.baton = b ∧ Reports bad position e
  | .stop b f => ∃ st e k, k ≤ bound ∧ Leads F cb opt x (st, .done (.err e)) k ∧ st.baton = b ∧ Faults f st e

theorem FailsAt.leads {x y : St β × Step} {k m m' : Nat} {out : Out β} {bad : Byte × Bool} {position : Nat}
    (h : Leads F cb opt x y k) (hy : FailsAt F cb opt y m out bad position) (hm : k + m ≤ m') : FailsAt F cb opt x m' out bad position := by
  cases out with
  | done b =>
    obtain ⟨st, e, k', hk, hl, h1, h2⟩ := hy
    exact ⟨st, e, k + k', by omega, h.trans hl, h1, h2⟩
  | stop b f =>
    obtain ⟨st, e, k', hk, hl, h1, h2⟩ := hy
    exact ⟨st, e, k + k', by omega, h.trans hl, h1, h2⟩

theorem FailsAt.bind {x : St β × Step} {m m' m'' : Nat} {out : Out β} {k : β → Out β} {pos : Pos} {good : St β → Prop} {bad : Byte × Bool}
    {position : Nat} (h : Reaches F cb opt x m out pos good)
    (hk : ∀ st, good st → FailsAt F cb opt (st, .next pos) m' (k st.baton) bad position) (hm : m + m' ≤ m'') :
    FailsAt F cb opt x m'' (out.bind k) bad position := by
  cases out with
  | done b =>
    obtain ⟨st, k', hk', hl, h1, h2⟩ := h
    have := hk st h1
    rw [h2] at this
    exact this.leads hl (by omega)
  | stop b f =>
    obtain ⟨st, e, k', hk', hl, h1, h2⟩ := h
    exact ⟨st, e, k', by omega, hl, h1, h2⟩

end

/-- As `Val.Safe`. -/
def Bad.Safe (s : RJ) : Bad → Prop
  | .obj w (.here b k _ _ _) => s.jidx = 0 → w ++ b = [] → s.b.nBytes ≤ 1 ∨ k.length + 3 ≤ s.b.nBytes
  | .obj w (.later b k _ _ _ _ _) => s.jidx = 0 → w ++ b = [] → s.b.nBytes ≤ 1 ∨ k.length + 3 ≤ s.b.nBytes
  | _ => True

theorem Bad.safe_pos {x : Bad} {s : RJ} (h : 0 < s.jidx) : x.Safe s := by
  unfold Bad.Safe
  split
  · intro h0; omega
  · intro h0; omega
  · trivial

/-- The text of an item without the space in front of it. -/
def BadItems.core : BadItems → Bytes
  | .here _ x => x.lead
  | .later _ v a rest => v.text ++ (a ++ rest.lead)

def BadItems.before : BadItems → Bytes
  | .here b _ => b
  | .later b _ _ _ => b

theorem BadItems.lead_eq (is : BadItems) : is.lead = is.before ++ is.core := by cases is <;> rfl

/-- The parts of a member. -/
def BadMembers.before : BadMembers → Bytes
  | .here b _ _ _ _ => b
  | .later b _ _ _ _ _ _ => b
@[inherit_doc BadMembers.before]
def BadMembers.name : BadMembers → Bytes
  | .here _ k _ _ _ => k
  | .later _ k _ _ _ _ _ => k
@[inherit_doc BadMembers.before]
def BadMembers.mid : BadMembers → Bytes
  | .here _ _ m _ _ => m
  | .later _ _ m _ _ _ _ => m
@[inherit_doc BadMembers.before]
def BadMembers.after : BadMembers → Bytes
  | .here _ _ _ m' x => m' ++ x.lead
  | .later _ _ _ m' v a rest => m' ++ (v.text ++ (a ++ rest.lead))

theorem NoValue.first {L : Nat} {t : Bytes} {c : Byte} (h : NoValue M L t c) : ¬ Space c ∧ c ≠ 12 ∧ c ≠ 91 ∧ c ≠ 123 := by
  rcases h with h | ⟨c', t', e, h, _⟩ | ⟨⟨c', t', e, h⟩, _⟩ | ⟨rfl, _⟩
  · exact ⟨h.1, h.2.1, h.2.2.2.1, h.2.2.2.2.1⟩
  · injection e with e _
    subst e
    rcases h with rfl | rfl | rfl <;> exact ⟨by unfold Space; decide, by decide, by decide, by decide⟩
  · injection e with e _
    subst e
    rcases h with rfl | h
    · exact ⟨by unfold Space; decide, by decide, by decide, by decide⟩
    · unfold Digit at h
      refine ⟨?_, ?_, ?_, ?_⟩
      · rintro (rfl | rfl | rfl | rfl) <;> simp at h
      all_goals rintro rfl; simp at h
  · exact ⟨by unfold Space; decide, by decide, by decide, by decide⟩

/-- What is no value is not skipped, and the position is kept. -/
theorem skipBasic_noValue {M : Mode} {L F : Nat} {c : Byte} {t : Bytes} (hc : NoValue M L t c) (h34 : c ≠ 34) {s : RJ} (hi : Inv M L F s) (hr : s.rest = c :: t) :
    ∃ s' e, skipBasic F c s = (s', .err e) ∧ Inv M L F s' ∧ s.Moved s' 0 := by
  rcases hc with hc | hw | hn | hs
  · exact skipBasic_alien hc hi hr
  · obtain ⟨c', t', e, h, hw⟩ := hw
    injection e with e1 e2
    subst e1 e2
    have h8 := hi.eight
    have hb : c = 116 ∨ c = 102 → ∃ s' e, skipBasic F c s = (s', .err e) ∧ Inv M L F s' ∧ s.Moved s' 0 := by
      intro hc
      obtain ⟨s', r, e, hx⟩ := RJ.loopUntilSuccess_sound (eager := false) (PrefixFn.jsound (Jiter.knownBool_prefix c)) s F hi.sync (by omega) (by simp)
        (by have := hi.fuel; unfold enoughFuel at this; omega)
      have e : s.knownBool F c = (s', r) := e
      rcases hx with ⟨v, n, rfl, _⟩ | ⟨er, rfl, _⟩
      · have := RJ.knownBool_word hc hi.sync (by omega) hi.fuel hr e
        rw [hr] at this
        exact absurd this hw
      · have hm := (RJ.knownBool_err hc hi.sync h8 hi.fuel hi.clean hr e).1
        refine ⟨s', .rjiter er, ?_, hi.moved hm (hi.reach_op (.knownBool c) (r := .err er) (by simp [Op.run, e, Res.void])), hm⟩
        unfold skipBasic
        rw [if_neg (by rcases hc with rfl | rfl <;> decide), if_neg (by rcases hc with rfl | rfl <;> decide), if_pos hc, e]
        rfl
    rcases h with h | h | rfl
    · exact hb (.inl h)
    · exact hb (.inr h)
    · obtain ⟨s', r, e, hx⟩ := RJ.loopUntilSuccess_sound (eager := false) (PrefixFn.jsound Jiter.knownNull_prefix) s F hi.sync (by omega) (by simp)
        (by have := hi.fuel; unfold enoughFuel at this; omega)
      have e : s.knownNull F = (s', r) := e
      rcases hx with ⟨v, n, rfl, _⟩ | ⟨er, rfl, _⟩
      · have := RJ.knownNull_word hi.sync (by omega) hi.fuel hr e
        rw [hr] at this
        exact absurd this hw
      · have hm := (RJ.knownNull_err hi.sync h8 hi.fuel hi.clean hr e).1
        refine ⟨s', .rjiter er, ?_, hi.moved hm (hi.reach_op .knownNull (r := .err er) (by simp [Op.run, e, Res.void])), hm⟩
        unfold skipBasic
        rw [if_neg (by decide), if_pos rfl, e]
        rfl
  · have h0 : c = 45 ∨ Digit c := by
      obtain ⟨⟨c', t', e, h⟩, _⟩ := hn
      injection e with e _
      rw [e]; exact h
    rw [← hr] at hn
    obtain ⟨s', er, e, hm⟩ := RJ.nextNumber_numberless hi.sync hi.eight hi.len hi.fuel hi.clean hn
    refine ⟨s', .unhandledPeek c s'.currentIndex, ?_, hi.moved hm (hi.reach_op .nextNumberBytes (r := .err er) (by simp [Op.run, e, Res.void])), hm⟩
    unfold skipBasic
    have hne : c ≠ 34 ∧ c ≠ 110 ∧ c ≠ 116 ∧ c ≠ 102 := by
      rcases h0 with rfl | h0
      · decide
      · unfold Digit at h0
        refine ⟨?_, ?_, ?_, ?_⟩
        all_goals rintro rfl; simp at h0
    rw [if_neg hne.1, if_neg hne.2.1, if_neg (by simp [hne.2.2]), e]
  · exact absurd hs.1 h34

/-- A string with a control character in it is not skipped. -/
theorem skipBasic_noText {M : Mode} {L F : Nat} {t : Bytes} (hc : NoText M t) {s : RJ} (hi : Inv M L F s) (hr : s.rest = 34 :: t) :
    ∃ s' e r n, skipBasic F 34 s = (s', .err e) ∧ s'.Sync ∧ s'.b.reader.Clean ∧ s'.b.buf.length = s.b.buf.length ∧
      enoughFuel s' F ∧ s'.rest = 34 :: r ∧ s'.currentIndex = s.currentIndex + n := by
  obtain ⟨k, x, y, ty, off, rfl, hk, hx, hs⟩ := hc
  obtain ⟨s', w', e, r, n, h1, h2⟩ := M.wrong s F k y x ty off hi.sync hi.eight hi.clean hi.fuel hi.inv hs hk hx hr
  refine ⟨s', .rjiter e, r, n, ?_, h2⟩
  unfold skipBasic
  rw [if_pos rfl, h1]
  rfl

/-- No token is skipped in front of a quote. -/
theorem skipSse_quote {F : Nat} : ∀ (tokens : List Bytes) {s : RJ} {r : Bytes}, s.Sync → s.b.reader.Clean → enoughFuel s F → 0 < s.b.buf.length →
    s.rest = 34 :: r → (∀ u ∈ tokens, u.length ≤ s.b.buf.length ∧ u ≠ [] ∧ u.head? ≠ some 34) →
    ∃ s', skipSse F tokens s = (s', none) ∧ s'.currentIndex = s.currentIndex
  | [], s, r, _, _, _, _, _, _ => ⟨s, rfl, rfl⟩
  | u :: tokens, s, r, h1, h2, h3, h4, h5, h6 => by
    obtain ⟨h7, h8, h9⟩ := h6 u (by simp)
    obtain ⟨s', e, hm⟩ := (C14_known_skip_token s u F h1 h4 h7 h2 h3).2 (by
      rw [h5]
      cases u with
      | nil => exact absurd rfl h8
      | cons a u =>
        rintro ⟨z, hz⟩
        rw [List.cons_append, List.cons.injEq] at hz
        exact h9 (by rw [hz.1]; rfl))
    obtain ⟨s2, e2, hm2⟩ := skipSse_quote (F := F) tokens (s := s') (r := r) hm.sync (hm.clean h2)
      (by have := hm.size; unfold enoughFuel at *; omega) (by rw [hm.buf]; exact h4) (by rw [hm.rest, h5]; rfl)
      (fun x hx => by rw [hm.buf]; exact h6 x (by simp [hx]))
    refine ⟨s2, ?_, by rw [hm2, hm.index]; rfl⟩
    simp only [skipSse, e, e2]

theorem BadMembers.lead_eq (ms : BadMembers) :
    ms.lead = ms.before ++ 34 :: (ms.name ++ 34 :: (ms.mid ++ 58 :: ms.after)) := by cases ms <;> rfl

theorem BadMembers.parts {R : Rules} {A : Spot} {ms : BadMembers} (h : ms.Meets R A) : Spaces ms.before ∧ R.key ms.name ms.mid ∧ Spaces ms.mid := by
  cases ms <;> exact ⟨h.1, h.2.1, h.2.2.1⟩

/-- The first byte of a broken value, before or at the bad byte. -/
theorem Bad.first {Rs : Rules} {L : Nat} {t : Bytes} {x : Bad} (h : x.Meets Rs (spot M L t)) : ∃ c r, x.lead ++ x.bad.1 :: t = c :: r ∧ ¬ Space c ∧ c ≠ 12 ∧
    (x ≠ .value 93 → c ≠ 93) := by
  cases x with
  | value c =>
    have h := NoValue.first (show NoValue M L t c from h)
    exact ⟨c, t, rfl, h.1, h.2.1, fun hx hc => hx (by rw [hc])⟩
  | arr w is => exact ⟨91, _, rfl, by unfold Space; decide, by decide, fun _ => by decide⟩
  | obj w ms => exact ⟨123, _, rfl, by unfold Space; decide, by decide, fun _ => by decide⟩
  | key w c => exact ⟨123, _, rfl, by unfold Space; decide, by decide, fun _ => by decide⟩

theorem ends_more {v : Val} {a t : Bytes} {c : Byte} (h : Ends v (a ++ [c])) : Ends v (a ++ c :: t) := by
  unfold Ends at *
  split
  · rename_i tok
    intro hn
    obtain ⟨h1, h2⟩ := h hn
    refine ⟨fun x hx => h1 x ?_, by simp⟩
    cases a with
    | nil => simpa using hx
    | cons y a => simpa using hx
  · trivial

section
variable {F : Nat} {cb : Callbacks β} {opt : Options} {O : Observer β} {M : Mode} {L : Nat} {R : Room}

theorem BadItems.first {is : BadItems} {t : Bytes} (h : is.Meets (rules M L) (spot M L t)) :
    ∃ c r, is.core ++ is.bad.1 :: t = c :: r ∧ ¬ Space c ∧ c ≠ 12 ∧ c ≠ 93 := by
  cases is with
  | here b x =>
    obtain ⟨c, r, h1, h2, h3, h4⟩ := x.first h.2.1
    exact ⟨c, r, h1, h2, h3, h4 h.2.2⟩
  | later b v a rest =>
    obtain ⟨c, r, hc, h1, h2, h3⟩ := v.first h.2.1
    refine ⟨c, r ++ (a ++ (rest.lead ++ rest.bad.1 :: t)), ?_, h1, h2, h3⟩
    simp [BadItems.core, BadItems.bad, hc]

variable (F cb opt O M L R) in
def BadRuns (x : Bad) : Prop :=
  ∀ t : Bytes, x.Meets (rules M L) (spot M L t) → ∀ (st : St β) (pos : Pos) (nm : Bytes) (l : List (Pos × Bytes)) (c : Byte) (r : Bytes),
    Inv M L F st.rj → Holds st.pool R ((pos, nm) :: l) → x.lead ++ x.bad.1 :: t = c :: r → st.rj.rest = c :: r → x.Safe st.rj →
    x.Clear (Foreign opt.sseTokens (x.bad.1 :: t))
      (pos = .top ∨ ((pos = .arrayBegin ∨ pos = .arrayMiddle) ∧ l.length + 1 = 2)) (l.length + 1) →
    FailsAt F cb opt (onValue F cb opt c pos st) (x.lead.length + 1) (x.scan O R (nm :: names l) st.baton) x.bad
      (st.rj.currentIndex + x.lead.length)

variable (F cb opt O M L R) in
def BadItemsRun (is : BadItems) : Prop :=
  ∀ t : Bytes, is.Meets (rules M L) (spot M L t) → ∀ (st : St β) (l : List (Pos × Bytes)) (c : Byte) (r : Bytes),
    Inv M L F st.rj → 0 < st.rj.jidx → Holds st.pool R ((.arrayMiddle, nameArray) :: l) → is.core ++ is.bad.1 :: t = c :: r →
    st.rj.rest = c :: r → is.Clear (Foreign opt.sseTokens (is.bad.1 :: t)) (l.length + 1) →
    FailsAt F cb opt (onValue F cb opt c .arrayMiddle st) (is.core.length + 1) (is.scan O R (nameArray :: names l) st.baton) is.bad
      (st.rj.currentIndex + is.core.length)

variable (F cb opt O M L R) in
def ItemsRestRun (rest : ItemsRest) : Prop :=
  ∀ t : Bytes, rest.Meets (rules M L) (spot M L t) → ∀ (st : St β) (l : List (Pos × Bytes)) (a : Bytes),
    Inv M L F st.rj → Holds st.pool R ((.arrayMiddle, nameArray) :: l) → Spaces a → st.rj.rest = a ++ (rest.lead ++ rest.bad.1 :: t) →
    rest.Clear (Foreign opt.sseTokens (rest.bad.1 :: t)) (l.length + 1) →
    FailsAt F cb opt (st, .next .arrayMiddle) (rest.lead.length + 1) (rest.scan O R (nameArray :: names l) st.baton) rest.bad
      (st.rj.currentIndex + a.length + rest.lead.length)

variable (F cb opt O M L R) in
def BadMembersRun (ms : BadMembers) : Prop :=
  ∀ t : Bytes, ms.Meets (rules M L) (spot M L t) → ∀ (st : St β) (pos : Pos) (nm : Bytes) (l : List (Pos × Bytes)),
    Inv M L F st.rj → 0 < st.rj.jidx → Holds st.pool R ((pos, nm) :: l) → st.rj.rest = ms.after ++ ms.bad.1 :: t →
    ms.Clear (Foreign opt.sseTokens (ms.bad.1 :: t)) (l.length + 1) →
    FailsAt F cb opt (wrap (afterKey cb ms.name st)) (ms.after.length + 2) (ms.scan O R (nm :: names l) st.baton) ms.bad
      (st.rj.currentIndex + ms.after.length)

variable (F cb opt O M L R) in
def MembersRestRun (rest : MembersRest) : Prop :=
  ∀ t : Bytes, rest.Meets (rules M L) (spot M L t) → ∀ (st : St β) (k nm : Bytes) (pos : Pos) (l : List (Pos × Bytes)) (a : Bytes),
    Inv M L F st.rj → Holds st.pool R ((.objectMiddle, k) :: (pos, nm) :: l) → Spaces a →
    st.rj.rest = a ++ (rest.lead ++ rest.bad.1 :: t) →
    rest.Clear (Foreign opt.sseTokens (rest.bad.1 :: t)) (l.length + 1) →
    FailsAt F cb opt (st, .next .objectMiddle) (rest.lead.length + 1)
      ((O.handler.end .none (k :: nm :: names l) st.baton).bind (rest.scan O R (nm :: names l))) rest.bad
      (st.rj.currentIndex + a.length + rest.lead.length)

theorem moved_index {s s' : RJ} {n : Nat} (h : s.Moved s' n) : s'.currentIndex = s.currentIndex + n := h.index

/-! ## Values -/

theorem badRuns_value (hW : Watches cb O) (hL : ∀ u ∈ opt.sseTokens, u.length ≤ L) (c : Byte) : BadRuns F cb opt O M L R (.value c) := by
  intro t hc st pos nm l c' r hi hst hcr hr _ hclear
  simp only [Bad.lead, Bad.bad, List.nil_append, List.cons.injEq] at hcr
  obtain ⟨rfl, rfl⟩ := hcr
  have hal : NoValue M L t c := hc
  unfold onValue
  rw [if_neg hal.first.2.2.1, if_neg hal.first.2.2.2]
  have hs := callAction_watch hW (p := .atom) hst
  simp only [List.map_cons] at hs
  simp only [Bad.scan, Observer.open]
  rcases ho : O.start .atom (nm :: names l) st.baton with ⟨b, o⟩
  rw [ho] at hs
  cases o with
  | some m =>
    simp only at hs ⊢
    obtain ⟨s1, e1⟩ := hs
    rw [e1]
    exact ⟨_, _, 0, Nat.zero_le _, .refl _, rfl, rfl⟩
  | none =>
    simp only at hs ⊢
    rw [hs]
    have hlen := hst.len
    by_cases h34 : c = 34
    · subst h34
      have hnt : NoText M t := by
        rcases hal with h | ⟨c', t', e, h, _⟩ | ⟨⟨c', t', e, h⟩, _⟩ | ⟨_, h⟩
        · exact absurd rfl h.2.2.1
        · injection e with e _
          subst e
          rcases h with h | h | h <;> exact absurd h (by decide)
        · injection e with e _
          subst e
          rcases h with h | h
          · exact absurd h (by decide)
          · simp [Digit] at h
        · exact h
      obtain ⟨s2, e, r, n, e2, g1, g2, g3, g4, g5, g6⟩ := skipBasic_noText hnt hi hr
      simp only
      rw [e2]
      simp only
      split
      · rename_i hpos
        have hno : Foreign opt.sseTokens (34 :: t) := hclear (by
          rcases hpos with hpos | ⟨h1, h2⟩
          · exact .inl hpos
          · exact .inr ⟨h1, by simp at hlen; omega⟩)
        obtain ⟨s3, e3, hm3⟩ := skipSse_quote opt.sseTokens g1 g2 g4 (by have := hi.eight; omega) g5 (fun u hu => by
          refine ⟨by have := hL u hu; have := hi.len; omega, ?_, (hno u hu).2 rfl⟩
          rintro rfl
          exact (hno [] hu).1 (List.nil_prefix ..))
        rw [e3]
        refine ⟨_, _, 0, Nat.zero_le _, .refl _, rfl, n, ?_, fun h => absurd rfl h⟩
        simp only [Bad.bad, Bad.lead, List.length_nil, Nat.add_zero, hm3, g6]
      · refine ⟨_, _, 0, Nat.zero_le _, .refl _, rfl, n, ?_, fun h => absurd rfl h⟩
        simp only [Bad.bad, Bad.lead, List.length_nil, Nat.add_zero, g6]
    · obtain ⟨s2, e, e2, hi2, hm2⟩ := skipBasic_noValue hal h34 hi hr
      simp only
      rw [e2]
      simp only
      split
      · rename_i hpos
        have hno : Foreign opt.sseTokens (c :: t) := hclear (by
          rcases hpos with hpos | ⟨h1, h2⟩
          · exact .inl hpos
          · exact .inr ⟨h1, by simp at hlen; omega⟩)
        obtain ⟨s3, e3, hi3, hm3⟩ := skipSse_none opt.sseTokens hi2 (by rw [hm2.rest, hr]; rfl) hL (fun u hu => (hno u hu).1)
        rw [e3]
        refine ⟨_, _, 0, Nat.zero_le _, .refl _, rfl, 0, ?_, fun _ => rfl⟩
        have := (hm2.trans hm3).index
        simp only [Nat.add_zero] at this
        simp only [Bad.bad, Bad.lead, List.length_nil, Nat.add_zero, this]
      · refine ⟨_, _, 0, Nat.zero_le _, .refl _, rfl, 0, ?_, fun _ => rfl⟩
        have := hm2.index
        simp only [Nat.add_zero] at this
        simp only [Bad.bad, Bad.lead, List.length_nil, Nat.add_zero, this]

theorem onValue_arr {st : St β} {pos : Pos} : onValue F cb opt 91 pos st = (st, .next .arrayBegin) := rfl
theorem onValue_obj {st : St β} {pos : Pos} : onValue F cb opt 123 pos st = (st, .next .objectBegin) := rfl

theorem badRuns_key (hW : Watches cb O) (w : Bytes) (c : Byte) : BadRuns F cb opt O M L R (.key w c) := by
  intro t hc st pos nm l c' r hi hst hcr hr _ hclear
  obtain ⟨hw, hcase⟩ := hc
  simp only [Bad.lead, Bad.bad, List.cons_append, List.cons.injEq] at hcr
  obtain ⟨rfl, hcr⟩ := hcr
  rw [onValue_obj]
  refine FailsAt.leads (Leads.step (by decide)) ?_ (m := 0) (by omega)
  rw [turn_object F cb opt (.inl rfl)]
  unfold handleObject
  rw [if_pos rfl]
  have hs := callAction_watch hW (p := .object) hst
  simp only [List.map_cons] at hs
  simp only [Bad.scan, Observer.open]
  rcases ho : O.start .object (nm :: names l) st.baton with ⟨b, o⟩
  rw [ho] at hs
  cases o with
  | some m =>
    simp only at hs ⊢
    obtain ⟨s1, e1⟩ := hs
    rw [e1]
    exact ⟨_, _, 0, Nat.zero_le _, .refl _, rfl, rfl⟩
  | none =>
    simp only at hs ⊢
    rw [hs]
    have hfail : ∃ s' e, st.rj.nextObjectBytes F = (s', .err e) ∧ ∀ kd, e.type ≠ .io kd := by
      rcases hcase with ⟨h1, h2, h3⟩ | ⟨rfl, hk⟩
      · simp only [List.mem_cons, List.not_mem_nil, or_false, not_or] at h3
        exact RJ.nextObject_fails st.rj F hi.sync (by have := hi.eight; omega) hi.clean hi.fuel
          (ws := w) (t := t) (c := c) (by rw [hr, ← hcr]) ((ws_iff _).2 hw) (isAsciiWs_false h1 h2) h3.1 h3.2.1 h3.2.2
      · exact RJ.nextObject_keyless st.rj F hi.sync (by have := hi.eight; omega) hi.clean hi.fuel
          (ws := w) (t := t) (by rw [hr, ← hcr]) ((ws_iff _).2 hw) hk
    obtain ⟨s', er, e, hio⟩ := hfail
    simp only
    rw [handleKey_fails (rj := s') (e := er) (by simpa using e)]
    exact ⟨_, _, 0, Nat.zero_le _, .refl _, rfl, er, rfl, hio⟩

theorem badRuns_arr (hW : Watches cb O) {w : Bytes} {is : BadItems} (his : BadItemsRun F cb opt O M L R is) :
    BadRuns F cb opt O M L R (.arr w is) := by
  intro t hc st pos nm l c' r hi hst hcr hr _ hclear
  obtain ⟨hw, hm⟩ := hc
  simp only [Bad.lead, Bad.bad, List.cons_append, List.cons.injEq] at hcr
  obtain ⟨rfl, hcr⟩ := hcr
  rw [onValue_arr]
  refine FailsAt.leads (Leads.step (by decide)) ?_ (m := is.core.length + 1) (by
    simp only [Bad.lead, BadItems.lead_eq, List.length_cons, List.length_append]; omega)
  rw [turn_array F cb opt (.inl rfl)]
  unfold handleArray
  rw [if_pos rfl]
  have hs := callAction_watch hW (p := .array) hst
  simp only [List.map_cons] at hs
  simp only [Bad.scan, Observer.open]
  rcases ho : O.start .array (nm :: names l) st.baton with ⟨b, o⟩
  rw [ho] at hs
  cases o with
  | some m =>
    simp only at hs ⊢
    obtain ⟨s1, e1⟩ := hs
    rw [e1]
    exact ⟨_, _, 0, Nat.zero_le _, .refl _, rfl, rfl⟩
  | none =>
    simp only at hs ⊢
    rw [hs]
    simp only
    by_cases hf : R.Fits (nm :: names l) nameArray
    · obtain ⟨p', r', e, hp⟩ := hst.push .arrayMiddle nameArray hf
      rw [if_pos hf, e]
      simp only
      have hb : Spaces is.before := by cases is <;> exact hm.1
      obtain ⟨c, r2, hc, hc1, hc2, hc3⟩ := is.first hm
      have hr' : st.rj.rest = 91 :: ((w ++ is.before) ++ c :: r2) := by
        rw [hr, ← hcr, ← hc, BadItems.lead_eq]; simp
      obtain ⟨s', e', hi', hm', hj⟩ := hi.knownArray hr' (Spaces.append hw hb) hc1 hc2
      rw [if_neg hc3] at e' hm'
      rw [handleItem_some (rj := s') (c := c) (by simpa using e')]
      have hr1 : s'.rest = c :: r2 := by
        rw [hm'.rest, hr']
        rw [show 91 :: ((w ++ is.before) ++ c :: r2) = (91 :: (w ++ is.before)) ++ (c :: r2) by simp]
        apply List.drop_left'
        simp; omega
      have := his t hm ⟨s', b, p'⟩ ((pos, nm) :: l) c r2 hi' hj hp hc hr1 (by simpa [Bad.Clear, Bad.bad] using hclear)
      have hidx := hm'.index
      simp only [Bad.bad, Bad.lead, BadItems.lead_eq]
      rw [show st.rj.currentIndex + (91 :: (w ++ (is.before ++ is.core))).length = s'.currentIndex + is.core.length by
        rw [hidx]; simp; omega]
      exact this
    · obtain ⟨p', er, e, hp, _⟩ := hst.push_full .arrayMiddle nameArray hf
      rw [if_neg hf, e]
      refine ⟨_, _, 0, Nat.zero_le _, .refl _, rfl, ?_⟩
      have := hp.len
      simp only [List.length_cons] at this
      simp [Faults, this]

theorem badRuns_obj (hW : Watches cb O) {w : Bytes} {ms : BadMembers} (hms : BadMembersRun F cb opt O M L R ms) :
    BadRuns F cb opt O M L R (.obj w ms) := by
  intro t hc st pos nm l c' r hi hst hcr hr hsafe hclear
  obtain ⟨hw, hm⟩ := hc
  simp only [Bad.lead, Bad.bad, List.cons_append, List.cons.injEq] at hcr
  obtain ⟨rfl, hcr⟩ := hcr
  rw [onValue_obj]
  refine FailsAt.leads (Leads.step (by decide)) ?_ (m := ms.after.length + 2) (by
    simp only [Bad.lead, BadMembers.lead_eq, List.length_cons, List.length_append]; omega)
  rw [turn_object F cb opt (.inl rfl)]
  unfold handleObject
  rw [if_pos rfl]
  have hs := callAction_watch hW (p := .object) hst
  simp only [List.map_cons] at hs
  simp only [Bad.scan, Observer.open]
  rcases ho : O.start .object (nm :: names l) st.baton with ⟨b, o⟩
  rw [ho] at hs
  cases o with
  | some m =>
    simp only at hs ⊢
    obtain ⟨s1, e1⟩ := hs
    rw [e1]
    exact ⟨_, _, 0, Nat.zero_le _, .refl _, rfl, rfl⟩
  | none =>
    simp only at hs ⊢
    rw [hs]
    simp only
    obtain ⟨hb, hk, hmid⟩ := BadMembers.parts hm
    have hr' : st.rj.rest = 123 :: ((w ++ ms.before) ++ 34 :: (ms.name ++ 34 :: (ms.mid ++ 58 :: (ms.after ++ ms.bad.1 :: t)))) := by
      rw [hr, ← hcr, BadMembers.lead_eq]; simp
    obtain ⟨s', e', hi', hm', hj⟩ := hi.objectKey hk.1 hr' (Spaces.append hw hb) hmid hk.2 (by
      cases ms <;> exact hsafe)
    rw [handleKey_some (rj := s') (key := ms.name) (by simpa using e')]
    have hr1 : s'.rest = ms.after ++ ms.bad.1 :: t := by
      rw [hm'.rest, hr']
      rw [show 123 :: ((w ++ ms.before) ++ 34 :: (ms.name ++ 34 :: (ms.mid ++ 58 :: (ms.after ++ ms.bad.1 :: t)))) =
        (123 :: ((w ++ ms.before) ++ 34 :: (ms.name ++ 34 :: (ms.mid ++ [58])))) ++ (ms.after ++ ms.bad.1 :: t) by simp]
      apply List.drop_left'
      simp; omega
    have := hms t hm ⟨s', b, st.pool⟩ pos nm l hi' hj hst hr1 (by simpa [Bad.Clear, Bad.bad] using hclear)
    have hidx := hm'.index
    simp only [Bad.bad, Bad.lead, BadMembers.lead_eq]
    rw [show st.rj.currentIndex + (123 :: (w ++ (ms.before ++ 34 :: (ms.name ++ 34 :: (ms.mid ++ 58 :: ms.after))))).length =
      s'.currentIndex + ms.after.length by rw [hidx]; simp; omega]
    exact this

/-! ## Items -/

theorem badItems_here {b : Bytes} {x : Bad} (hx : BadRuns F cb opt O M L R x) : BadItemsRun F cb opt O M L R (.here b x) := by
  intro t hm st l c r hi hj hst hc hr hclear
  refine hx t hm.2.1 st .arrayMiddle nameArray l c r hi hst hc hr (x.safe_pos hj) ?_
  have : x.Clear (Foreign opt.sseTokens (x.bad.1 :: t)) (l.length + 1 = 2) (l.length + 1) := hclear
  cases x with
  | value c =>
    intro hs
    exact this (by rcases hs with hs | hs <;> simp_all)
  | arr w is => exact this
  | obj w ms => exact this
  | key w c => exact this

theorem badItems_later (hW : Watches cb O) {b a : Bytes} {v : Val} {rest : ItemsRest} (hrest : ItemsRestRun F cb opt O M L R rest) :
    BadItemsRun F cb opt O M L R (.later b v a rest) := by
  intro t hm st l c r hi hj hst hc hr hclear
  obtain ⟨hb, hv, ha, he, hmr⟩ := hm
  obtain ⟨c', r', hc', _⟩ := v.first hv
  have hcc : c = c' := by
    simp only [BadItems.core, hc', List.cons_append, List.cons.injEq] at hc
    exact hc.1.symm
  subst hcc
  have hr0 : st.rj.rest = v.text ++ (a ++ (rest.lead ++ rest.bad.1 :: t)) := by
    rw [hr, ← hc]; simp [BadItems.core, BadItems.bad]
  have he' : Ends v (a ++ (rest.lead ++ rest.bad.1 :: t)) := by
    rw [← List.append_assoc] at he ⊢
    exact ends_more he
  have hval := valRuns (F := F) (cb := cb) (opt := opt) (R := R) (hW.implements M L F) v hv st .arrayMiddle nameArray l _ c r' hi hst hc' hr0 he'
    (v.safe_pos hj)
  simp only [BadItems.scan]
  refine FailsAt.bind hval (fun st3 ⟨hi3, hm3, hp3, _⟩ => ?_) (m' := rest.lead.length + 1) (by simp [BadItems.core]; omega)
  have := hrest t hmr st3 l a hi3 hp3 ha (moved_rest hm3 hr0) hclear
  have hidx := hm3.index
  simp only [BadItems.core, BadItems.bad]
  rw [show st.rj.currentIndex + (v.text ++ (a ++ rest.lead)).length = st3.rj.currentIndex + a.length + rest.lead.length by
    rw [hidx]; simp; omega]
  exact this

theorem itemsRest_sep (c : Byte) : ItemsRestRun F cb opt O M L R (.sep c) := by
  intro t hm st l a hi hst ha hr hclear
  obtain ⟨h1, h2, h3⟩ := hm
  simp only [List.mem_cons, List.not_mem_nil, or_false, not_or] at h3
  obtain ⟨s', er, e, hio⟩ := RJ.arrayStep_fails st.rj F hi.sync (by have := hi.eight; omega) hi.clean hi.fuel
    (ws := a) (t := t) (c := c) hr ((ws_iff _).2 ha) (isAsciiWs_false h1 h2) h3.1 h3.2
  refine FailsAt.leads (Leads.step (by decide)) ?_ (m := 0) (by omega)
  rw [turn_array F cb opt (.inr rfl), handleArray_middle, handleItem_fails (rj := s') (e := er) (by simpa using e)]
  exact ⟨_, _, 0, Nat.zero_le _, .refl _, rfl, er, rfl, hio⟩

theorem itemsRest_comma {is : BadItems} (his : BadItemsRun F cb opt O M L R is) : ItemsRestRun F cb opt O M L R (.comma is) := by
  intro t hm st l a hi hst ha hr hclear
  have hm : is.Meets (rules M L) (spot M L t) := hm
  have hb : Spaces is.before := by cases is <;> exact hm.1
  obtain ⟨c, r2, hc, hc1, hc2, hc3⟩ := is.first hm
  have hr' : st.rj.rest = a ++ 44 :: (is.before ++ c :: r2) := by
    rw [hr, ← hc]; simp [ItemsRest.lead, ItemsRest.bad, BadItems.lead_eq]
  obtain ⟨s', e', hi', hm', hj⟩ := hi.arrayComma hr' ha hb hc1 hc2 hc3
  have hr1 : s'.rest = c :: r2 := by
    rw [hm'.rest, hr']
    rw [show a ++ 44 :: (is.before ++ c :: r2) = (a ++ 44 :: is.before) ++ (c :: r2) by simp]
    apply List.drop_left'
    simp; omega
  refine FailsAt.leads (Leads.step (by decide)) ?_ (m := is.core.length + 1) (by simp [ItemsRest.lead, BadItems.lead_eq]; omega)
  rw [turn_array F cb opt (.inr rfl), handleArray_middle, handleItem_some (rj := s') (c := c) (by simpa using e')]
  have := his t hm { st with rj := s' } l c r2 hi' hj hst hc hr1 hclear
  have hidx := hm'.index
  simp only [ItemsRest.bad, ItemsRest.lead, BadItems.lead_eq]
  rw [show st.rj.currentIndex + a.length + (44 :: (is.before ++ is.core)).length = s'.currentIndex + is.core.length by
    rw [hidx]; simp; omega]
  exact this

/-! ## Members -/

theorem Inv.peekBad {s : RJ} (h : Inv M L F s) {x : Bad} {ws t : Bytes} (hx : x.Meets (rules M L) (spot M L t)) (hw : Spaces ws)
    (hh : x.HeadMeets (rules M L) ws) (hrd : M.loose ∨ ws ≠ [] ∨ Ready s) (hr : s.rest = ws ++ (x.lead ++ x.bad.1 :: t)) :
    ∃ s' c r, s.peek F = (s', .ok c) ∧ x.lead ++ x.bad.1 :: t = c :: r ∧ Inv M L F s' ∧ s.Moved s' ws.length ∧ x.Safe s' := by
  obtain ⟨c, r, hc, h1, h2, -⟩ := x.first hx
  obtain ⟨s', e, hi, hm⟩ := h.peek (ws := ws) (c := c) (t := r) (by rw [hr, hc]) hw h1 h2
  refine ⟨s', c, r, e, hc, hi, hm, ?_⟩
  unfold Bad.Safe
  split
  · rename_i w b k m m' y
    obtain ⟨hw1, hb1, _, hm1, _⟩ := hx
    exact M.peek s s' F c ws (w ++ b) k m (m' ++ (y.lead ++ y.bad.1 :: t)) h.sync h.clean h.fuel h.mlen h.eight h.inv hrd hh hw
      (Spaces.append hw1 hb1) hm1 (by rw [hr]; simp [Bad.lead, BadMembers.lead, Bad.bad, BadMembers.bad]) e
  · rename_i w b k m m' v a rest
    obtain ⟨hw1, hb1, _, hm1, _⟩ := hx
    exact M.peek s s' F c ws (w ++ b) k m (m' ++ (v.text ++ (a ++ (rest.lead ++ rest.bad.1 :: t)))) h.sync h.clean h.fuel h.mlen h.eight h.inv
      hrd hh hw (Spaces.append hw1 hb1) hm1 (by rw [hr]; simp [Bad.lead, BadMembers.lead, Bad.bad, BadMembers.bad]) e
  · trivial

/-- A key for which there is no room. -/
theorem afterKey_full {st : St β} {pos : Pos} {nm k : Bytes} {l : List (Pos × Bytes)} {bound : Nat} {bad : Byte × Bool} {position : Nat}
    (hst : Holds st.pool R ((pos, nm) :: l)) (hf : ¬ R.Fits (nm :: names l) k) (inner : β → Out β) :
    FailsAt F cb opt (wrap (afterKey cb k st)) bound (R.key (nm :: names l) k inner st.baton) bad position := by
  unfold afterKey Room.key
  obtain ⟨p', er, e, hp, h4, h5⟩ := hst.push_full .objectMiddle k hf
  rw [if_neg hf, e]
  simp only
  simp only [List.length_cons, List.length_map] at h4 h5 ⊢
  by_cases hmx : R.max ≤ l.length + 1
  · rw [if_pos hmx, h4 hmx]
    exact ⟨_, _, 0, Nat.zero_le _, .refl _, rfl, rfl⟩
  · rw [if_neg hmx]
    refine ⟨_, _, 0, Nat.zero_le _, .refl _, rfl, ?_⟩
    have h6 := h5 hmx
    cases er with
    | sliceLimitExceeded m => exact absurd rfl (h6 m)
    | _ => rfl

theorem badMembers_here (hW : Watches cb O) {b k m m' : Bytes} {x : Bad} (hx : BadRuns F cb opt O M L R x) :
    BadMembersRun F cb opt O M L R (.here b k m m' x) := by
  intro t hm st pos nm l hi hj hst hr hclear
  by_cases hf : R.Fits (nm :: names l) k
  · obtain ⟨hb, hk, hm0, hm', hxm, hh⟩ := hm
    have hr : st.rj.rest = m' ++ (x.lead ++ x.bad.1 :: t) := by rw [hr]; simp [BadMembers.after, BadMembers.bad]
    simp only [BadMembers.name, BadMembers.scan, Room.key]
    unfold afterKey
    obtain ⟨p', r', e, hp⟩ := hst.push .objectMiddle k hf
    rw [if_pos hf, e]
    simp only
    have hs := callAction_watch hW (p := .none) (st := { st with pool := p' }) hp
    simp only [List.map_cons] at hs
    simp only [Observer.open]
    rcases ho : O.start .none (k :: nm :: names l) st.baton with ⟨b', o⟩
    rw [ho] at hs
    cases o with
    | some msg =>
      simp only at hs ⊢
      obtain ⟨s1, e1⟩ := hs
      rw [e1]
      exact ⟨_, _, 0, Nat.zero_le _, .refl _, rfl, rfl⟩
    | none =>
      simp only at hs ⊢
      rw [hs]
      obtain ⟨s2, c, r2, e2, hc, hi2, hm2, hsafe⟩ := hi.peekBad hxm hm' hh (.inr (.inr fun h0 => absurd h0 (Nat.ne_of_gt hj))) hr
      have hr2 : s2.rest = c :: r2 := by rw [← hc]; exact moved_rest hm2 hr
      have hval := hx t hxm ⟨s2, b', p'⟩ .objectMiddle k ((pos, nm) :: l) c r2 hi2 hp hc hr2 hsafe (by
        have : x.Clear (Foreign opt.sseTokens (x.bad.1 :: t)) False (l.length + 1 + 1) := hclear
        cases x with
        | value c => intro hs; simp at hs
        | arr w is => exact this
        | obj w ms => exact this
        | key w c => exact this)
      have hlead := Leads.step (F := F) (cb := cb) (opt := opt) (p := .objectBetweenKV) (st := { st with pool := p', baton := b' }) (by decide)
      rw [turn_between (st := { st with pool := p', baton := b' }) (s' := s2) (c := c) e2] at hlead
      refine FailsAt.leads hlead ?_ (m := x.lead.length + 1) (by simp [BadMembers.after]; omega)
      have hidx := hm2.index
      simp only [BadMembers.bad, BadMembers.after]
      rw [show st.rj.currentIndex + (m' ++ x.lead).length = s2.currentIndex + x.lead.length by rw [hidx]; simp; omega]
      exact hval
  · simp only [BadMembers.scan, BadMembers.name]
    exact afterKey_full hst hf _

theorem badMembers_later (hW : Watches cb O) {b k m m' a : Bytes} {v : Val} {rest : MembersRest}
    (hrest : MembersRestRun F cb opt O M L R rest) : BadMembersRun F cb opt O M L R (.later b k m m' v a rest) := by
  intro t hm st pos nm l hi hj hst hr hclear
  by_cases hf : R.Fits (nm :: names l) k
  · obtain ⟨hb, hk, hm0, hm', hv, hh, ha, he, hmr⟩ := hm
    have hr : st.rj.rest = m' ++ (v.text ++ (a ++ (rest.lead ++ rest.bad.1 :: t))) := by
      rw [hr]; simp [BadMembers.after, BadMembers.bad]
    have he' : Ends v (a ++ (rest.lead ++ rest.bad.1 :: t)) := by
      rw [← List.append_assoc] at he ⊢
      exact ends_more he
    simp only [BadMembers.name, BadMembers.scan, Room.key]
    unfold afterKey
    obtain ⟨p', r', e, hp⟩ := hst.push .objectMiddle k hf
    rw [if_pos hf, e]
    simp only
    have hs := callAction_watch hW (p := .none) (st := { st with pool := p' }) hp
    simp only [List.map_cons] at hs
    simp only [Observer.open]
    rcases ho : O.start .none (k :: nm :: names l) st.baton with ⟨b', o⟩
    rw [ho] at hs
    cases o with
    | some msg =>
      simp only at hs ⊢
      obtain ⟨s1, e1⟩ := hs
      rw [e1]
      exact ⟨_, _, 0, Nat.zero_le _, .refl _, rfl, rfl⟩
    | none =>
      simp only at hs ⊢
      rw [hs]
      obtain ⟨s2, c, r2, e2, hc, hi2, hm2, hsafe⟩ := hi.peekValue hv hm' hh (.inr (.inr fun h0 => absurd h0 (Nat.ne_of_gt hj))) hr
      have hr2 : s2.rest = v.text ++ (a ++ (rest.lead ++ rest.bad.1 :: t)) := moved_rest hm2 hr
      have hval := valRuns (F := F) (cb := cb) (opt := opt) (R := R) (hW.implements M L F) v hv ⟨s2, b', p'⟩ .objectMiddle k ((pos, nm) :: l)
        _ c r2 hi2 hp hc hr2 he' hsafe
      have hlead := Leads.step (F := F) (cb := cb) (opt := opt) (p := .objectBetweenKV) (st := { st with pool := p', baton := b' }) (by decide)
      rw [turn_between (st := { st with pool := p', baton := b' }) (s' := s2) (c := c) e2] at hlead
      refine FailsAt.leads hlead ?_ (m := v.text.length + (rest.lead.length + 1)) (by simp [BadMembers.after]; omega)
      simp only [Out.bind_assoc]
      refine FailsAt.bind hval (fun st3 ⟨hi3, hm3, hp3, _⟩ => ?_) (Nat.le_refl _)
      have := hrest t hmr st3 k nm pos l a hi3 hp3 ha (moved_rest hm3 hr2) hclear
      have hidx := (hm2.trans hm3).index
      simp only [BadMembers.bad, BadMembers.after]
      rw [show st.rj.currentIndex + (m' ++ (v.text ++ (a ++ rest.lead))).length = st3.rj.currentIndex + a.length + rest.lead.length by
        rw [hidx]; simp; omega]
      exact this
  · simp only [BadMembers.scan, BadMembers.name]
    exact afterKey_full hst hf _

/-- The turn behind a value: the end of the key, then the next key. -/
theorem member_turn (M : Mode) (L : Nat) (hW : Watches cb O) {st : St β} {k nm : Bytes} {pos : Pos} {l : List (Pos × Bytes)} {bound : Nat} {bad : Byte × Bool}
    {position : Nat} {K : β → Out β} (hst : Holds st.pool R ((.objectMiddle, k) :: (pos, nm) :: l))
    (h : ∀ p' b, Holds p' R ((pos, nm) :: l) → FailsAt F cb opt (wrap (handleKey F cb false { st with baton := b, pool := p' })) bound (K b)
      bad position) :
    FailsAt F cb opt (st, .next .objectMiddle) (bound + 1) ((O.handler.end .none (k :: nm :: names l) st.baton).bind K) bad position := by
  obtain ⟨p', hp, e⟩ := handleObject_middle (F := F) (hW.implements M L F) hst
  have hlead := Leads.step (F := F) (cb := cb) (opt := opt) (p := .objectMiddle) (st := st) (by decide)
  rw [turn_object F cb opt (.inr rfl), e] at hlead
  simp only [List.map_cons] at hlead
  unfold Handler.end
  rcases hf : O.handler.finish .none (k :: nm :: names l) st.baton with ⟨b, o⟩
  rw [hf] at hlead
  cases o with
  | some m => exact ⟨_, _, 1, by omega, hlead, rfl, rfl⟩
  | none =>
    simp only [Out.bind]
    exact FailsAt.leads hlead (h p' b hp) (by omega)

theorem membersRest_sep (hW : Watches cb O) (c : Byte) : MembersRestRun F cb opt O M L R (.sep c) := by
  intro t hm st k nm pos l a hi hst ha hr hclear
  obtain ⟨h1, h2, h3⟩ := hm
  simp only [List.mem_cons, List.not_mem_nil, or_false, not_or] at h3
  obtain ⟨s', er, e, hio⟩ := RJ.nextKey_fails st.rj F hi.sync (by have := hi.eight; omega) hi.clean hi.fuel
    (ws := a) (t := t) (c := c) hr ((ws_iff _).2 ha) (isAsciiWs_false h1 h2) h3.1 h3.2
  refine FailsAt.leads (.refl _) (member_turn M L hW (bound := 0) hst fun p' b hp => ?_) (by omega)
  rw [handleKey_fails (rj := s') (e := er) (by simpa using e)]
  exact ⟨_, _, 0, Nat.zero_le _, .refl _, rfl, er, rfl, hio⟩

theorem membersRest_key (hW : Watches cb O) (b0 : Bytes) (c : Byte) : MembersRestRun F cb opt O M L R (.key b0 c) := by
  intro t hm st k nm pos l a hi hst ha hr hclear
  obtain ⟨hb, hcase⟩ := hm
  have hfail : ∃ s' e, st.rj.nextKeyBytes F = (s', .err e) ∧ ∀ kd, e.type ≠ .io kd := by
    rcases hcase with ⟨h1, h2, h3⟩ | ⟨rfl, hk⟩
    · simp only [List.mem_cons, List.not_mem_nil, or_false, not_or] at h3
      exact RJ.nextKey_comma_fails st.rj F hi.sync (by have := hi.eight; omega) hi.clean hi.fuel
        (ws := a) (ws2 := b0) (t := t) (c := c) (by rw [hr]; simp [MembersRest.lead, MembersRest.bad]) ((ws_iff _).2 ha)
        ((ws_iff _).2 hb) (isAsciiWs_false h1 h2) h3.1 h3.2.1 h3.2.2
    · exact RJ.nextKey_comma_keyless st.rj F hi.sync (by have := hi.eight; omega) hi.clean hi.fuel
        (ws := a) (ws2 := b0) (t := t) (by rw [hr]; simp [MembersRest.lead, MembersRest.bad]) ((ws_iff _).2 ha)
        ((ws_iff _).2 hb) hk
  obtain ⟨s', er, e, hio⟩ := hfail
  refine FailsAt.leads (.refl _) (member_turn M L hW (bound := 0) hst fun p' b hp => ?_) (by omega)
  rw [handleKey_fails (rj := s') (e := er) (by simpa using e)]
  exact ⟨_, _, 0, Nat.zero_le _, .refl _, rfl, er, rfl, hio⟩

theorem membersRest_comma (hW : Watches cb O) {ms : BadMembers} (hms : BadMembersRun F cb opt O M L R ms) :
    MembersRestRun F cb opt O M L R (.comma ms) := by
  intro t hm st k nm pos l a hi hst ha hr hclear
  have hm : ms.Meets (rules M L) (spot M L t) := hm
  obtain ⟨hb, hk, hmid⟩ := BadMembers.parts hm
  have hr' : st.rj.rest = a ++ 44 :: (ms.before ++ 34 :: (ms.name ++ 34 :: (ms.mid ++ 58 :: (ms.after ++ ms.bad.1 :: t)))) := by
    rw [hr]; simp [MembersRest.lead, MembersRest.bad, BadMembers.lead_eq]
  obtain ⟨s', e', hi', hm', hj⟩ := hi.nextKey hk.1 hr' ha hb hmid hk.2
  have hr1 : s'.rest = ms.after ++ ms.bad.1 :: t := by
    rw [hm'.rest, hr']
    rw [show a ++ 44 :: (ms.before ++ 34 :: (ms.name ++ 34 :: (ms.mid ++ 58 :: (ms.after ++ ms.bad.1 :: t)))) =
      (a ++ 44 :: (ms.before ++ 34 :: (ms.name ++ 34 :: (ms.mid ++ [58])))) ++ (ms.after ++ ms.bad.1 :: t) by simp]
    apply List.drop_left'
    simp; omega
  refine FailsAt.leads (.refl _) (member_turn M L hW (bound := ms.after.length + 2) hst fun p' b hp => ?_) (by
    simp [MembersRest.lead, BadMembers.lead_eq]; omega)
  rw [handleKey_some (rj := s') (key := ms.name) (by simpa using e')]
  have := hms t hm ⟨s', b, p'⟩ pos nm l hi' hj hp hr1 hclear
  have hidx := hm'.index
  simp only [MembersRest.bad, MembersRest.lead, BadMembers.lead_eq]
  rw [show st.rj.currentIndex + a.length + (44 :: (ms.before ++ 34 :: (ms.name ++ 34 :: (ms.mid ++ 58 :: ms.after)))).length =
    s'.currentIndex + ms.after.length by rw [hidx]; simp; omega]
  exact this

/-! ## The induction -/

mutual
theorem badRuns (hW : Watches cb O) (hL : ∀ u ∈ opt.sseTokens, u.length ≤ L) : ∀ x : Bad, BadRuns F cb opt O M L R x
  | .value c => badRuns_value hW hL c
  | .arr _ is => badRuns_arr hW (badItemsRun hW hL is)
  | .obj _ ms => badRuns_obj hW (badMembersRun hW hL ms)
  | .key w c => badRuns_key hW w c
theorem badItemsRun (hW : Watches cb O) (hL : ∀ u ∈ opt.sseTokens, u.length ≤ L) : ∀ x : BadItems, BadItemsRun F cb opt O M L R x
  | .here _ x => badItems_here (badRuns hW hL x)
  | .later _ _ _ rest => badItems_later hW (itemsRestRun hW hL rest)
theorem itemsRestRun (hW : Watches cb O) (hL : ∀ u ∈ opt.sseTokens, u.length ≤ L) : ∀ x : ItemsRest, ItemsRestRun F cb opt O M L R x
  | .sep c => itemsRest_sep c
  | .comma is => itemsRest_comma (badItemsRun hW hL is)
theorem badMembersRun (hW : Watches cb O) (hL : ∀ u ∈ opt.sseTokens, u.length ≤ L) : ∀ x : BadMembers, BadMembersRun F cb opt O M L R x
  | .here _ _ _ _ x => badMembers_here hW (badRuns hW hL x)
  | .later _ _ _ _ _ _ rest => badMembers_later hW (membersRestRun hW hL rest)
theorem membersRestRun (hW : Watches cb O) (hL : ∀ u ∈ opt.sseTokens, u.length ≤ L) : ∀ x : MembersRest, MembersRestRun F cb opt O M L R x
  | .sep c => membersRest_sep hW c
  | .key b c => membersRest_key hW b c
  | .comma ms => membersRest_comma hW (badMembersRun hW hL ms)
end

/-! ## `scan` -/

/-- Not an object with a member before the error. -/
def Bad.Memberless : Bad → Prop
  | .obj _ _ => False
  | _ => True

theorem Feed.text_append : ∀ (fs : Feed) (a b : Bytes), Feed.text fs (a ++ b) = Feed.text fs a ++ b
  | [], _, _ => rfl
  | (_, x) :: fs, a, b => by simp [Feed.text, Feed.text_append fs a b]

/-- `scan` of a feed with a broken document at its end. -/
theorem scan_bad (hW : Watches cb O) (hopt : opt.stopEarly = false) (hL : ∀ u ∈ opt.sseTokens, u.length ≤ L) (l : List (Pos × Bytes))
    {K : Marks β} (hq : Silent cb .atom (nameTop :: names l) K.token) {boxes : Prop}
    (hbox : boxes → l = [] ∧ R.Fits [nameTop] nameArray ∧ Silent cb .array [nameTop] K.array ∧
      Silent cb .atom [nameArray, nameTop] K.inside)
    (fs : Feed) (b0 : Bytes) (x : Bad) (t : Bytes) (st : St β) (hi : Inv M L F st.rj) (hrd : Ready st.rj)
    (hst : Holds st.pool R l) (hfit : R.Fits (names l) nameTop)
    (hm : Feed.Meets (rules M L) opt.sseTokens M.loose boxes (b0 ++ (x.lead ++ x.bad.1 :: t)) false fs)
    (hb : Spaces b0) (hx : x.Meets (rules M L) (spot M L t)) (hh : x.HeadMeets (rules M L) b0)
    (hgap : fs.lastToken false = true → M.loose ∨ b0 ≠ [] ∨ x.Memberless)
    (hclear : x.Clear (Foreign opt.sseTokens (x.bad.1 :: t)) True (l.length + 1))
    (hr : st.rj.rest = Feed.text fs (b0 ++ (x.lead ++ x.bad.1 :: t))) :
    match (Feed.scan O.handler K R (nameTop :: names l) fs st.baton).bind (x.scan O R (nameTop :: names l)) with
    | .done b => ∃ st' e, st'.baton = b ∧ Reports x.bad (st.rj.currentIndex + (Feed.text fs (b0 ++ x.lead)).length) e ∧
        ∀ n, fs.length + st.rj.rest.length + 1 ≤ n → scan n F cb opt st = (st', .err e)
    | .stop b f => ∃ st' e, st'.baton = b ∧ Faults f st' e ∧
        ∀ n, fs.length + st.rj.rest.length + 1 ≤ n → scan n F cb opt st = (st', .err e) := by
  obtain ⟨p', r, e, hp⟩ := hst.push .top nameTop hfit
  have hfeed := feed_run (R := R) (hW.implements M L F) hopt hL (b0 ++ (x.lead ++ x.bad.1 :: t)) nameTop l hq hbox fs false false
    { st with pool := p' } hi (fun _ => hrd) hp hm hr
  have htxt : (Feed.text fs (b0 ++ (x.lead ++ x.bad.1 :: t))).length = (Feed.text fs (b0 ++ x.lead)).length + 1 + t.length := by
    rw [← List.append_assoc, Feed.text_append]; simp; omega
  have htxt2 : (Feed.text fs (b0 ++ x.lead)).length = (Feed.text fs []).length + b0.length + x.lead.length := by
    have := Feed.text_append fs [] (b0 ++ x.lead)
    rw [List.nil_append] at this
    rw [this]; simp; omega
  rw [hr]
  unfold scan
  rw [e]
  simp only at hfeed ⊢
  cases hds : Feed.scan O.handler K R (nameTop :: names l) fs st.baton with
  | stop b f => rw [hds] at hfeed; exact hfeed
  | done b =>
    rw [hds] at hfeed
    obtain ⟨st2, pr', k', h4, h5, h6, h7, h8, h9, ⟨m, hm3, h10⟩, h11⟩ := hfeed
    -- the turn in front of the broken document
    have hpeek : ∃ s' c r, st2.rj.peek F = (s', .ok c) ∧ x.lead ++ x.bad.1 :: t = c :: r ∧ Inv M L F s' ∧
        st2.rj.Moved s' b0.length ∧ x.Safe s' := by
      by_cases hsafe : M.loose ∨ b0 ≠ [] ∨ Ready st2.rj
      · exact h6.peekBad hx hb hh hsafe h9
      · have hml : x.Memberless := by
          cases hlt : fs.lastToken false with
          | false => exact absurd (.inr (.inr (h7 hlt))) hsafe
          | true =>
            rcases hgap hlt with h | h | h
            · exact absurd (.inl h) hsafe
            · exact absurd (.inr (.inl h)) hsafe
            · exact h
        obtain ⟨c, r, hc, h1, h2, -⟩ := x.first hx
        obtain ⟨s', e, hi', hm'⟩ := h6.peek (ws := b0) (c := c) (t := r) (by rw [h9, hc]) hb h1 h2
        refine ⟨s', c, r, e, hc, hi', hm', ?_⟩
        unfold Bad.Safe
        split
        · exact hml.elim
        · exact hml.elim
        · trivial
    obtain ⟨s', c, r', ep, hc, hi', hm', hsafe⟩ := hpeek
    have hr' : s'.rest = c :: r' := by rw [← hc]; exact moved_rest hm' h9
    have hclear' : x.Clear (Foreign opt.sseTokens (x.bad.1 :: t))
        (Pos.top = .top ∨ ((Pos.top = .arrayBegin ∨ Pos.top = .arrayMiddle) ∧ l.length + 1 = 2)) (l.length + 1) := by
      cases x with
      | value c => exact fun _ => hclear trivial
      | arr w is => exact hclear
      | obj w ms => exact hclear
      | key w c => exact hclear
    have hbad := badRuns (F := F) (M := M) (R := R) hW hL x t hx { st2 with rj := s' } .top nameTop l c r' hi' h8 hc hr' hsafe hclear'
    rw [← turn_top (opt := opt) (cb := cb) ep] at hbad
    have hidx : s'.currentIndex + x.lead.length = st.rj.currentIndex + (Feed.text fs (b0 ++ x.lead)).length := by
      have := (h10.trans hm').index
      rw [this]
      simp only [List.length_append, List.length_cons] at hm3
      omega
    simp only at hbad
    rw [hidx, h5] at hbad
    simp only [Out.bind]
    simp only [List.length_append, List.length_cons] at h4
    cases hsc : x.scan O R (nameTop :: names l) b with
    | done b' =>
      rw [hsc] at hbad
      obtain ⟨st3, e3, k, hk, hlead, h12, h13⟩ := hbad
      refine ⟨st3, e3, h12, h13, ?_⟩
      intro n hn
      rw [show n = (n - k' - 1) + 1 + k' by omega, h11, mainLoop_go (by simp [hopt]), show n - k' - 1 = (n - k' - 1 - k) + k by omega, hlead]
      rfl
    | stop b' f =>
      rw [hsc] at hbad
      obtain ⟨st3, e3, k, hk, hlead, h12, h13⟩ := hbad
      refine ⟨st3, e3, h12, h13, ?_⟩
      intro n hn
      rw [show n = (n - k' - 1) + 1 + k' by omega, h11, mainLoop_go (by simp [hopt]), show n - k' - 1 = (n - k' - 1 - k) + k by omega, hlead]
      rfl

end

end Verif.Scan
