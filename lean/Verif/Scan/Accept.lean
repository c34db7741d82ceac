import Verif.RJiter.Accept
import Verif.Scan.LooseDoc
import Verif.Scan.Returns
import Verif.Scan.Bad

/-!
# What an `Ok` of `scan` says about the input

Each turn of the main loop is followed backwards: if what is behind it is as it should be, then so is what is in front of it.
-/

namespace Verif.Scan

open Verif.RJiter
open Verif.RJiter.Jiter
open Verif.U8Pool (Pool PRes PoolError)

variable {β : Type}

/-! ## Specification -/

/-- What is known about the input and the buffer: `safe` if the bytes of long strings are looked at properly, and the length of the
buffer. -/
structure Care where
  safe : Prop
  len : Nat

/-- A usable parser as `strict` says. -/
structure Fine (F : Nat) (strict : Care) (s : RJ) : Prop where
  usable : Usable F s
  safe : strict.safe → Harmless s
  full : s.b.buf.length = strict.len

/-- The callbacks do what the handler says. They look at a value only by consuming it, and a value they consume is loose. -/
structure Sees (cb : Callbacks β) (H : Handler β) (F : Nat) (strict : Care) : Prop where
  start : ∀ (p : Pseudo) (path : List Bytes) (b : β) (s : RJ), Fine F strict s →
    match cb.find p ⟨path, path.length⟩ b with
    | (b', none) => ∀ v, H.start p path v b = (b', .none)
    | (b', some act) =>
      match act s b' with
      | ((s', b''), .op .none) => s' = s ∧ ∀ v, H.start p path v b = (b'', .none)
      | ((s', b''), .op .valueIsConsumed) => Fine F strict s' ∧ 0 < s'.jidx ∧ ∃ ws v, Blank ws ∧ Starts p v ∧ v.Loose strict.safe ∧ (0 < s.jidx → v.Tight) ∧
          v.Parted strict.len s'.rest ∧ s.rest = ws ++ (v.text ++ s'.rest) ∧ H.start p path v b = (b'', .valueIsConsumed)
      | _ => True
  finish : ∀ (p : Pseudo) (path : List Bytes) (b : β),
    (match cb.findEnd p ⟨path, path.length⟩ b with
      | (b', none) => (b', none)
      | (b', some act) => act b') = H.finish p path b

/-! ## The parser -/

theorem Fine.step {F : Nat} {strict : Care} {s s' : RJ} (h : Fine F strict s) (hm : ∃ n, s.Moved s' n) (hr : Reach s.b s'.b) :
    Fine F strict s' := by
  obtain ⟨n, hm⟩ := hm
  refine ⟨h.usable.moved hm, fun hs => ?_, hm.buf ▸ h.full⟩
  rcases h.safe hs with h1 | h1
  · exact .inl (hr.keeps (P := AllBytes (fun c => c.toNat < 0x80)) (fun b hok h => h.readMore hok) (fun b t f _ h => h.shift t f)
      h.usable.sync.ok h1)
  · refine .inr fun h2 => h1 ?_
    rw [hm.rest] at h2
    exact List.mem_of_mem_drop h2

theorem Fine.loop {F : Nat} {strict : Care} {s s' : RJ} (h : Fine F strict s) (hm : ∃ n, s.Moved s' n) {α : Type} {f : JFn α}
    {tok : Option Byte} {eager : Bool} {r : Res α} (hr : s.loopUntilSuccess F f tok eager = (s', r)) : Fine F strict s' := by
  refine h.step hm ?_
  have := RJ.loopUntilSuccess_reach F s f tok eager
  rw [hr] at this
  exact this

section
variable {F : Nat} {strict : Care}

theorem Fine.len (h : Fine F strict s) : 1 < s.b.buf.length := by have := h.usable.len; omega

/-- What reading an atom has done: `tok` is its text. -/
def Atom (F : Nat) (strict : Care) (s s' : RJ) (tok : Bytes) : Prop :=
  Fine F strict s' ∧ 0 < s'.jidx ∧ ∃ ws, Blank ws ∧ LooseAtom strict.safe tok ∧ (Val.atom tok).Parted strict.len s'.rest ∧ s.rest = ws ++ (tok ++ s'.rest)

theorem parted_word {c : Byte} {t x : Bytes} {L : Nat} (hc : c ≠ 45 ∧ isDigit c = false) : (Val.atom (c :: t)).Parted L x := by
  intro h
  obtain ⟨d, u, e, hd⟩ := number_head h
  injection e with e _
  subst e
  rcases hd with rfl | hd
  · exact absurd rfl hc.1
  · rw [hc.2] at hd; cases hd

theorem moved_split {s s' : RJ} {n : Nat} {a t : Bytes} (hm : s.Moved s' n) (hr : s.rest = a ++ t) (hn : n = a.length) :
    s.rest = a ++ s'.rest := by
  rw [rest_after hm hr hn, hr]

theorem string_atom {s s' : RJ} {w w' : Writer} {t : Bytes} (h : Fine F strict s) (hr : s.rest = 34 :: t)
    (hok : s.writeLongBytes F w = ((s', w'), .ok ())) :
    ∃ body, Atom F strict s s' (34 :: (body ++ [34])) ∧ w'.out = w.out ++ body := by
  have hok : s.handleLong .raw F w = ((s', w'), .ok ()) := hok
  obtain ⟨q, body, t', v, e, hm, ho, hv⟩ := handleLong_ok0 h.usable.sync hok
  have hq : q = 34 := by rw [hr] at e; injection e with e; exact e.symm
  subst hq
  have hv : v = body := hv
  subst hv
  have hd : SkimDone strict.safe s s 0 :=
    ⟨by omega, by rw [List.take_zero]; exact .nil, fun _ => by rw [List.take_zero]; exact .nil, fun hs => h.safe hs⟩
  obtain ⟨q2, body2, t2, e2, hm2, hwk, hsk⟩ := handleLong_skim strict.safe s
    (by intro q t e; rw [hr] at e; injection e with e; rw [← e]; decide) F s w 0 (.inl ⟨rfl, h.usable.sync, rfl⟩) hd s' w' hok
  have hlen : body2.length = v.length := by
    have h1 := hm.index
    have h2 := hm2.index
    omega
  rw [e] at e2
  injection e2 with _ e2
  have hb := (List.append_inj e2 hlen.symm).1
  subst hb
  refine ⟨v, ⟨h.step ⟨_, hm⟩ ?_, handleLong_warm _ _ _ _ _ hok, [], List.forall_mem_nil _, .string v hsk hwk, parted_word (by decide), ?_⟩, ho⟩
  · have := RJ.handleLong_reach .raw F s w
    rw [hok] at this
    exact this
  · rw [List.nil_append]
    exact moved_split hm (t := t') (by rw [e]; simp) (by simp)

theorem null_atom {s s' : RJ} {v : Unit} {t : Bytes} (h : Fine F strict s) (hr : s.rest = 110 :: t)
    (hok : s.knownNull F = (s', .ok v)) : Atom F strict s s' [110, 117, 108, 108] := by
  obtain ⟨d, n, hp, h1, hm⟩ := known_value (PrefixFn.jsound knownNull_prefix) (consumeIdent_still _ _) h.usable.sync h.usable.fuel
    (by have := h.len; omega) hr (by simp [Space]) (by decide) hok
  rw [hr] at hp
  obtain ⟨t', rfl, _, hn⟩ := ident_of_prefix hp (by decide) h1
  exact ⟨h.loop ⟨_, hm⟩ hok, loopUntilSuccess_warm (PrefixFn.eats knownNull_prefix) hok, [], List.forall_mem_nil _, .null, parted_word (by decide), by rw [List.nil_append]; exact moved_split hm (t := t') (by rw [hr]; simp) (by rw [hn]; rfl)⟩

theorem true_atom {s s' : RJ} {v : Bool} {t : Bytes} (h : Fine F strict s) (hr : s.rest = 116 :: t)
    (hok : s.knownBool F 116 = (s', .ok v)) : Atom F strict s s' [116, 114, 117, 101] := by
  obtain ⟨d, n, hp, h1, hm⟩ := known_value (PrefixFn.jsound (knownBool_prefix 116)) (consumeIdent_still _ _) h.usable.sync h.usable.fuel
    (by have := h.len; omega) hr (by simp [Space]) (by decide) hok
  rw [hr] at hp
  obtain ⟨t', rfl, _, hn⟩ := ident_of_prefix hp (by decide) h1
  exact ⟨h.loop ⟨_, hm⟩ hok, loopUntilSuccess_warm (PrefixFn.eats (knownBool_prefix 116)) hok, [], List.forall_mem_nil _, .true, parted_word (by decide), by rw [List.nil_append]; exact moved_split hm (t := t') (by rw [hr]; simp) (by rw [hn]; rfl)⟩

theorem false_atom {s s' : RJ} {v : Bool} {t : Bytes} (h : Fine F strict s) (hr : s.rest = 102 :: t)
    (hok : s.knownBool F 102 = (s', .ok v)) : Atom F strict s s' [102, 97, 108, 115, 101] := by
  obtain ⟨d, n, hp, h1, hm⟩ := known_value (PrefixFn.jsound (knownBool_prefix 102)) (consumeIdent_still _ _) h.usable.sync h.usable.fuel
    (by have := h.len; omega) hr (by simp [Space]) (by decide) hok
  rw [hr] at hp
  obtain ⟨t', rfl, _, hn⟩ := ident_of_prefix hp (by decide) h1
  exact ⟨h.loop ⟨_, hm⟩ hok, loopUntilSuccess_warm (PrefixFn.eats (knownBool_prefix 102)) hok, [], List.forall_mem_nil _, .false, parted_word (by decide), by rw [List.nil_append]; exact moved_split hm (t := t') (by rw [hr]; simp) (by rw [hn]; rfl)⟩

theorem number_atom {s s' : RJ} {v : Bytes} (h : Fine F strict s) (hok : s.nextNumberBytes F = (s', .ok v)) : Atom F strict s s' v := by
  obtain ⟨ws, t, e, hw, hn, hm, hp⟩ := C44_next_number s F h.usable.sync (by have := h.len; omega) h.usable.fuel s' v hok
  have ht : s'.rest = t := rest_after hm (a := ws ++ v) (by rw [e, List.append_assoc]) (by simp)
  refine ⟨h.loop ⟨_, hm⟩ hok, loopUntilSuccess_warm nextNumber_eats hok, ws, hw, .number v hn, fun _ => ?_, ?_⟩
  · rw [ht]
    rcases hp with hp | rfl | hp
    · exact .inl hp
    · exact .inl fun c b y e => nomatch e
    · exact .inr (hp.trans h.full)
  rw [← List.append_assoc]
  exact moved_split hm (t := t) (by rw [e]; simp) (by simp)

theorem skipBasic_atom {s s' : RJ} {c : Byte} {t : Bytes} (h : Fine F strict s) (hr : s.rest = c :: t)
    (hok : skipBasic F c s = (s', .ok ())) : ∃ tok, Atom F strict s s' tok := by
  unfold skipBasic at hok
  by_cases h1 : c = 34
  · subst h1
    rw [if_pos rfl] at hok
    rcases hx : s.writeLongBytes F ⟨[], []⟩ with ⟨⟨s1, w1⟩, r⟩
    rw [hx] at hok
    cases r with
    | ok u =>
      simp only [dropValue, Prod.mk.injEq] at hok
      obtain ⟨rfl, _⟩ := hok
      obtain ⟨body, ha, _⟩ := string_atom h hr hx
      exact ⟨_, ha⟩
    | err e => simp [dropValue] at hok
    | panic => simp [dropValue] at hok
    | diverge => simp [dropValue] at hok
  rw [if_neg h1] at hok
  by_cases h2 : c = 110
  · subst h2
    rw [if_pos rfl] at hok
    rcases hx : s.knownNull F with ⟨s1, r⟩
    rw [hx] at hok
    cases r with
    | ok u =>
      simp only [dropValue, Prod.mk.injEq] at hok
      obtain ⟨rfl, _⟩ := hok
      exact ⟨_, null_atom h hr hx⟩
    | err e => simp [dropValue] at hok
    | panic => simp [dropValue] at hok
    | diverge => simp [dropValue] at hok
  rw [if_neg h2] at hok
  by_cases h3 : c = 116 ∨ c = 102
  · rw [if_pos h3] at hok
    rcases hx : s.knownBool F c with ⟨s1, r⟩
    rw [hx] at hok
    cases r with
    | ok u =>
      simp only [dropValue, Prod.mk.injEq] at hok
      obtain ⟨rfl, _⟩ := hok
      rcases h3 with rfl | rfl
      · exact ⟨_, true_atom h hr hx⟩
      · exact ⟨_, false_atom h hr hx⟩
    | err e => simp [dropValue] at hok
    | panic => simp [dropValue] at hok
    | diverge => simp [dropValue] at hok
  rw [if_neg h3] at hok
  rcases hx : s.nextNumberBytes F with ⟨s1, r⟩
  rw [hx] at hok
  cases r with
  | ok u =>
    simp only [Prod.mk.injEq] at hok
    obtain ⟨rfl, _⟩ := hok
    exact ⟨_, number_atom h hx⟩
  | err e => simp at hok
  | panic => simp at hok
  | diverge => simp at hok

end

/-! ## The relations between what is behind a turn and what is in front of it -/

/-- What is said of the input behind a document at the top level, of the client's state there, and of the state and the input in the end. The first
two arguments are the context stack. -/
abbrev Aim (β : Type) : Type := Bytes → List (Pos × Bytes) → Bytes → β → β → Bytes → Prop

/-- The aim of an `Ok`: with `stop`, nothing more is read; otherwise all that follows is documents. -/
def ends (strict : Care) (stop : Bool) (H : Handler β) (R : Room) : Aim β := fun n l rest b b' last =>
  if stop then b' = b ∧ last = rest
  else ∃ (ds : Docs) (tail : Bytes), rest = Docs.text ds tail ∧ Docs.Loose strict.safe ds tail ∧ Docs.Parted strict.len ds tail ∧ Docs.scan H R (n :: names l) ds b = .done b' ∧ last = []

section
variable (strict : Care) (aim : Aim β) (H : Handler β) (R : Room)

/-- `rest` is what may follow a value inside of the entries `l` of the context stack; `b` is the client's state behind the value and `b'` the
one in the end; `last` is what is left of the input in the end. -/
def Tail : List (Pos × Bytes) → Bytes → β → β → Bytes → Prop
  | (.top, n) :: l, rest, b, b', last =>
    aim n l rest b b' last
  | (.arrayMiddle, n) :: l, rest, b, b', last =>
    ∃ (a : Bytes) (more : Items) (x : Bytes) (b1 b2 : β), rest = a ++ (more.textMore ++ 93 :: x) ∧ Blank a ∧ more.Loose strict.safe ∧
      more.scan H R (n :: names l) b = .done b1 ∧ H.end .array (names l) b1 = .done b2 ∧ Tail l x b2 b' last
  | (.objectMiddle, k) :: l, rest, b, b', last =>
    ∃ (b0 : β) (a : Bytes) (more : Members) (x : Bytes) (b1 b2 : β), H.end .none (k :: names l) b = .done b0 ∧ rest = a ++ (more.textMore ++ 125 :: x) ∧
      Blank a ∧ more.Loose strict.safe ∧
      more.scan H R (names l) b0 = .done b1 ∧ H.end .object (names l) b1 = .done b2 ∧ Tail l x b2 b' last
  | _, _, _, _, _ => False

/-- `rest` is a value for which `p` is reported, and what may follow it. -/
def Entire (tight : Prop) (p : Pseudo) (l : List (Pos × Bytes)) (rest : Bytes) (b b' : β) (last : Bytes) : Prop :=
  ∃ (ws : Bytes) (v : Val) (x : Bytes) (b1 : β), rest = ws ++ (v.text ++ x) ∧ Blank ws ∧ Starts p v ∧ v.Loose strict.safe ∧ (tight → v.Tight) ∧
    v.Parted strict.len x ∧ v.scan H R (names l) b = .done b1 ∧ Tail strict aim H R l x b1 b' last

/-- What is in front of the parser at a position. -/
def Ahead (tight : Prop) : Pos → List (Pos × Bytes) → Bytes → β → β → Bytes → Prop
  | .top => Tail strict aim H R
  | .arrayMiddle => Tail strict aim H R
  | .objectMiddle => Tail strict aim H R
  | .arrayBegin => Entire strict aim H R tight .array
  | .objectBegin => Entire strict aim H R tight .object
  | .objectBetweenKV => Entire strict aim H R False .none
end

/-- The state between two turns. -/
structure Fwd (F : Nat) (strict : Care) (R : Room) (pos : Pos) (l : List (Pos × Bytes)) (st : St β) : Prop where
  fine : Fine F strict st.rj
  holds : Holds st.pool R l
  frames : Frames l
  onTop : OnTop pos l
  array : pos = .arrayBegin → ∃ t, st.rj.rest = 91 :: t

section
variable {cb : Callbacks β} {F : Nat} {R : Room} {opt : Options} {H : Handler β} {strict : Care} {aim : Aim β}

theorem frames_ahead {l : List (Pos × Bytes)} (h : Frames l) : ∃ e t, l = e :: t ∧ OnTop e.1 l ∧ e.1 ≠ .arrayBegin ∧
    ∀ tight rest b b' last, Ahead strict aim H R tight e.1 l rest b b' last → Tail strict aim H R l rest b b' last := by
  cases h with
  | top n l => exact ⟨_, _, rfl, ⟨n, l, rfl⟩, by simp, fun _ _ _ _ _ h => h⟩
  | key n h => exact ⟨_, _, rfl, ⟨n, _, rfl⟩, by simp, fun _ _ _ _ _ h => h⟩
  | item n h => exact ⟨_, _, rfl, ⟨n, _, rfl⟩, by simp, fun _ _ _ _ _ h => h⟩

theorem callAction_sees (hC : Sees cb H F strict) (p : Pseudo) {st : St β} (hf : Fine F strict st.rj) {l : List (Pos × Bytes)}
    (hl : Holds st.pool R l) :
    match callAction cb p st with
    | (st', .go) => st'.rj = st.rj ∧ st'.pool = st.pool ∧ ∀ v, H.start p (names l) v st.baton = (st'.baton, .none)
    | (st', .consumed) => Fine F strict st'.rj ∧ 0 < st'.rj.jidx ∧ st'.pool = st.pool ∧ ∃ ws v, Blank ws ∧ Starts p v ∧ v.Loose strict.safe ∧ (0 < st.rj.jidx → v.Tight) ∧
        v.Parted strict.len st'.rj.rest ∧ st.rj.rest = ws ++ (v.text ++ st'.rj.rest) ∧ H.start p (names l) v st.baton = (st'.baton, .valueIsConsumed)
    | (_, .leave r) => ∀ x, r ≠ .ok x := by
  have h := hC.start p (names l) st.baton st.rj hf
  have hctx : Ctx.of st.pool = ⟨names l, (names l).length⟩ := hl.ctx
  rw [← hctx] at h
  unfold callAction
  rcases hfi : cb.find p (.of st.pool) st.baton with ⟨b, _ | act⟩
  · rw [hfi] at h
    exact ⟨rfl, rfl, h⟩
  · rw [hfi] at h
    simp only at h ⊢
    rcases ha : act st.rj b with ⟨⟨s', b'⟩, (_ | _ | m) | _ | _⟩
    · rw [ha] at h
      exact ⟨h.1, rfl, h.2⟩
    · rw [ha] at h
      exact ⟨h.1, h.2.1, rfl, h.2.2⟩
    · simp
    · simp
    · simp

theorem endStep_sees (hC : Sees cb H F strict) (p : Pseudo) (st : St β) (pool : Pool) {q : Pool} {l : List (Pos × Bytes)}
    (hl : Holds q R l) :
    match endStep cb p (.of q) st pool with
    | (st', none) => st'.rj = st.rj ∧ st'.pool = pool ∧ H.end p (names l) st.baton = .done st'.baton
    | (_, some _) => True := by
  have h := hC.finish p (names l) st.baton
  have hctx : Ctx.of q = ⟨names l, (names l).length⟩ := hl.ctx
  rw [← hctx] at h
  unfold endStep Handler.end
  rw [← h]
  rcases hfi : cb.findEnd p (.of q) st.baton with ⟨b, _ | act⟩
  · exact ⟨rfl, rfl, rfl⟩
  · simp only [runEnd]
    rcases ha : act b with ⟨b', _ | m⟩
    · exact ⟨rfl, rfl, rfl⟩
    · trivial

/-- Behind an item or a member the parser is not at the start of its buffer. -/
def Warm (pos : Pos) (s : RJ) : Prop := pos = .arrayMiddle ∨ pos = .objectMiddle → 0 < s.jidx

/-- The next position `p` and its state are good, and if what is behind is good, then `Pre` holds. -/
def Backs (F : Nat) (strict : Care) (aim : Aim β) (H : Handler β) (R : Room) (p : Pos) (st' : St β) (Pre : β → Bytes → Prop) : Prop :=
  ∃ l', Fwd F strict R p l' st' ∧ Warm p st'.rj ∧ ∀ b' last, Ahead strict aim H R (0 < st'.rj.jidx) p l' st'.rj.rest st'.baton b' last → Pre b' last

/-- The three positions behind a value. -/
def Resting (pos : Pos) : Prop := pos = .top ∨ pos = .arrayMiddle ∨ pos = .objectMiddle

theorem Resting.ahead {tight : Prop} {pos : Pos} (h : Resting pos) : Ahead strict aim H R tight pos = Tail strict aim H R := by
  rcases h with rfl | rfl | rfl <;> rfl

theorem Entire.any {tight : Prop} {p : Pseudo} {l : List (Pos × Bytes)} {rest : Bytes} {b b' : β} {last : Bytes}
    (h : Entire strict aim H R tight p l rest b b' last) : Entire strict aim H R tight .none l rest b b' last := by
  obtain ⟨ws, v, x, b1, h1, h2, _, h3⟩ := h
  exact ⟨ws, v, x, b1, h1, h2, trivial, h3⟩

theorem around_none {p : Pseudo} {path : List Bytes} {v : Val} {inner : β → Out β} {b b1 : β} (h : H.start p path v b = (b1, .none)) :
    H.around p path v inner b = inner b1 := by
  simp only [Handler.around, h]

theorem around_consumed {p : Pseudo} {path : List Bytes} {v : Val} {inner : β → Out β} {b b1 : β}
    (h : H.start p path v b = (b1, .valueIsConsumed)) : H.around p path v inner b = .done b1 := by
  simp only [Handler.around, h]

/-- A consumed value. -/
theorem consumed_scan {p : Pseudo} (hp : p ≠ .none) {path : List Bytes} {v : Val} {b b1 : β} (hs : Starts p v)
    (h : H.start p path v b = (b1, .valueIsConsumed)) : v.scan H R path b = .done b1 := by
  cases v <;> cases p <;> first | exact hs.elim | exact absurd rfl hp | (simp only [Val.scan]; exact around_consumed h)

/-- The end of a turn. -/
def Turned (F : Nat) (strict : Care) (aim : Aim β) (H : Handler β) (R : Room) (Pre : β → Bytes → Prop) (x : St β × Step) : Prop :=
  match x with
  | (st', .next p) => Backs F strict aim H R p st' Pre
  | (_, .done r) => ∀ x, r ≠ .ok x

theorem onValue_turned (hC : Sees cb H F strict) (hsse : opt.sseTokens = []) {st : St β} {c : Byte} {t : Bytes} {pos : Pos}
    {l : List (Pos × Bytes)} (hf : Fwd F strict R pos l st) (hpos : Resting pos) (hr : st.rj.rest = c :: t) :
    Turned F strict aim H R (Entire strict aim H R (0 < st.rj.jidx) .none l st.rj.rest st.baton) (onValue F cb opt c pos st) := by
  rw [onValue_eq]
  by_cases h1 : c = 91
  · subst h1
    rw [if_pos rfl]
    exact ⟨l, ⟨hf.fine, hf.holds, hf.frames, trivial, fun _ => ⟨t, hr⟩⟩, by intro h; simp at h, fun _ _ h => h.any⟩
  rw [if_neg h1]
  by_cases h2 : c = 123
  · rw [if_pos h2]
    exact ⟨l, ⟨hf.fine, hf.holds, hf.frames, trivial, by simp⟩, by intro h; simp at h, fun _ _ h => h.any⟩
  rw [if_neg h2]
  have ha := callAction_sees hC .atom hf.fine hf.holds
  have hna : pos = .arrayBegin → ∃ t, st.rj.rest = 91 :: t := hf.array
  rcases hx : callAction cb .atom st with ⟨st2, _ | _ | r⟩
  · rw [hx] at ha
    obtain ⟨e1, e2, e3⟩ := ha
    simp only [skipStep]
    rcases hy : skipBasic F c st2.rj with ⟨s3, r⟩
    cases r with
    | ok u =>
      obtain ⟨tok, hj, hwm, ws, hw, hlo, hpt, e⟩ := skipBasic_atom (by rw [e1]; exact hf.fine) (by rw [e1]; exact hr) hy
      refine ⟨l, ⟨hj, by rw [e2]; exact hf.holds, hf.frames, hf.onTop, ?_⟩, fun _ => hwm, ?_⟩
      · rcases hpos with rfl | rfl | rfl <;> simp
      · intro b' last hg
        rw [hpos.ahead] at hg
        refine ⟨ws, .atom tok, s3.rest, st2.baton, by rw [← e1]; exact e, hw, trivial, hlo, fun _ => trivial, hpt, ?_, hg⟩
        simp only [Val.scan]
        exact around_none (e3 _)
    | err e =>
      simp only [hsse, skipSse]
      split <;> (intro x h; cases h)
    | panic => intro x h; cases h
    | diverge => intro x h; cases h
  · rw [hx] at ha
    obtain ⟨hj, hwm, e2, ws, v, hw, hs, hlo, hti, hpt, e, e3⟩ := ha
    refine ⟨l, ⟨hj, by rw [e2]; exact hf.holds, hf.frames, hf.onTop, ?_⟩, fun _ => hwm, ?_⟩
    · rcases hpos with rfl | rfl | rfl <;> simp
    · intro b' last hg
      rw [hpos.ahead] at hg
      exact ⟨ws, v, _, _, e, hw, trivial, hlo, hti, hpt, consumed_scan (by decide) hs e3, hg⟩
  · rw [hx] at ha
    rcases r with r | r | _ | _
    · exact absurd rfl (ha r)
    · intro x h; cases h
    · intro x h; cases h
    · intro x h; cases h

/-- What is in front of `known_array`, and of `array_step`. -/
def ItemPre (strict : Care) (aim : Aim β) (H : Handler β) (R : Room) (begin : Bool) (n : Bytes) (l : List (Pos × Bytes)) (rest : Bytes)
    (b b' : β) (last : Bytes) : Prop :=
  if begin then
    ∃ (w : Bytes) (items : Items) (x : Bytes) (b1 b2 : β), rest = 91 :: (w ++ (items.text ++ 93 :: x)) ∧ Blank w ∧ items.Loose strict.safe ∧
      items.scan H R (n :: names l) b = .done b1 ∧ H.end .array (names l) b1 = .done b2 ∧ Tail strict aim H R l x b2 b' last
  else Tail strict aim H R ((.arrayMiddle, n) :: l) rest b b' last

/-- The result of `handle_array`. -/
def Itemed (F : Nat) (strict : Care) (aim : Aim β) (H : Handler β) (R : Room) (Pre : β → Bytes → Prop) (x : St β × SRes (Option Byte × Pos)) :
    Prop :=
  match x with
  | (st', .ok (none, p)) => Backs F strict aim H R p st' Pre
  | (st', .ok (some c, p)) => p = .arrayMiddle ∧ ∃ l' t, Fwd F strict R p l' st' ∧ st'.rj.rest = c :: t ∧
      ∀ b' last, Entire strict aim H R (0 < st'.rj.jidx) .none l' st'.rj.rest st'.baton b' last → Pre b' last
  | _ => True

theorem handleItem_back (hC : Sees cb H F strict) (begin : Bool) {st : St β} (hf : Fine F strict st.rj) {l : List (Pos × Bytes)}
    {n : Bytes} (hl : Holds st.pool R ((.arrayMiddle, n) :: l)) (hfr : Frames l) (hb : begin = true → ∃ t, st.rj.rest = 91 :: t)
    (hwarm : begin = false → 0 < st.rj.jidx) :
    Itemed F strict aim H R (ItemPre strict aim H R begin n l st.rj.rest st.baton) (handleItem F cb begin st) := by
  rw [handleItem_eq]
  -- the text of the two calls
  have hstep : ∀ s' v, (if begin then st.rj.knownArray F else st.rj.arrayStep F) = (s', .ok v) →
      Fine F strict s' ∧ 0 < s'.jidx ∧
      (v = none ∧ (∀ b2 b' last, H.end .array (names l) st.baton = .done b2 → Tail strict aim H R l s'.rest b2 b' last →
          ItemPre strict aim H R begin n l st.rj.rest st.baton b' last) ∨
        ∃ c t, v = some c ∧ s'.rest = c :: t ∧ ∀ b' last, Entire strict aim H R (0 < s'.jidx) .none ((.arrayMiddle, n) :: l) s'.rest st.baton b' last →
          ItemPre strict aim H R begin n l st.rj.rest st.baton b' last) := by
    intro s' v hok
    cases begin with
    | true =>
      rw [if_pos rfl] at hok
      obtain ⟨t0, hr0⟩ := hb rfl
      obtain ⟨q, ws, c, t, e, hw, hc, hm, hcase⟩ := RJ.knownArray_text hf.usable.sync hf.len hf.usable.fuel
        (by intro c h; rw [hr0] at h; injection h with h; rw [← h]; decide) hok
      have hq : q = 91 := by rw [hr0] at e; injection e with e; exact e.symm
      subst hq
      have hwm := loopUntilSuccess_warm knownArray_eats hok
      refine ⟨hf.loop hm hok, hwm, ?_⟩
      rcases hcase with ⟨rfl, rfl, hs⟩ | ⟨_, rfl, hs⟩
      · refine .inl ⟨rfl, fun b2 b' last he ht => ?_⟩
        exact ⟨ws, .nil, t, st.baton, b2, by rw [e]; simp [Items.text], .of_aws hw, trivial, rfl, he, by rw [← hs]; exact ht⟩
      · refine .inr ⟨c, t, rfl, hs, fun b' last hwh => ?_⟩
        obtain ⟨ws', v, x, b1, h1, h2, _, h3, hti, _, h4, a, more, y, b2, b3, h5, h6, h7, h8, h9, h10⟩ := hwh
        refine ⟨ws, .cons ws' v a more, y, b2, b3, ?_, .of_aws hw, ⟨h2, hti hwm, h3, h6, h7⟩, ?_, h9, h10⟩
        · rw [e, ← hs, h1, h5]; simp [Items.text]
        · simp only [names, List.map_cons] at h4 h8 ⊢
          simp only [Items.scan, h4, Out.bind, h8]
    | false =>
      simp only [Bool.false_eq_true, if_false] at hok
      rcases RJ.arrayStep_any hf.usable.sync hf.len hf.usable.fuel (hwarm rfl) hok with ⟨ws, t, e, hw, hv, hs, hm⟩ | ⟨ws, ws2, c, t, e, hw, hw2, hc, _, hv, hs, hm⟩
      · refine ⟨hf.loop hm hok, loopUntilSuccess_warm arrayStep_eats hok, .inl ⟨hv, fun b2 b' last he ht => ?_⟩⟩
        exact ⟨ws, .nil, t, st.baton, b2, by rw [e]; simp [Items.textMore], hw, trivial, rfl, he, by rw [← hs]; exact ht⟩
      · have hwm := loopUntilSuccess_warm arrayStep_eats hok
        refine ⟨hf.loop hm hok, hwm, .inr ⟨c, t, hv, hs, fun b' last hwh => ?_⟩⟩
        obtain ⟨ws', v, x, b1, h1, h2, _, h3, hti, _, h4, a, more, y, b2, b3, h5, h6, h7, h8, h9, h10⟩ := hwh
        refine ⟨ws, .cons (ws2 ++ ws') v a more, y, b2, b3, ?_, hw, ⟨hw2.append h2, hti hwm, h3, h6, h7⟩, ?_, h9, h10⟩
        · rw [e, ← hs, h1, h5]; simp [Items.textMore]
        · simp only [names, List.map_cons] at h4 h8 ⊢
          simp only [Items.scan, h4, Out.bind, h8]
  generalize (if begin then st.rj.knownArray F else st.rj.arrayStep F) = x at hstep ⊢
  rcases x with ⟨s', v | e | _ | _⟩
  · obtain ⟨hfine, hwm, hcase⟩ := hstep s' v rfl
    rcases hcase with ⟨rfl, hpre⟩ | ⟨c, t, rfl, hs, hpre⟩
    · simp only
      obtain ⟨p', r, e, hp'⟩ := hl.pop
      rw [e]
      simp only
      have he := endStep_sees hC .array { st with rj := s', pool := p' } p' hp'
      rcases hx : endStep cb .array (.of p') { st with rj := s', pool := p' } p' with ⟨st2, _ | e⟩
      · rw [hx] at he
        obtain ⟨h1, h2, h3⟩ := he
        simp only
        obtain ⟨e, t, rfl, ht, hb1, hb2⟩ := frames_ahead (strict := strict) (aim := aim) (H := H) (R := R) hfr
        have hl' : Holds st2.pool R (e :: t) := by rw [h2]; exact hp'
        rw [hl'.topPos]
        refine ⟨_, ⟨by rw [h1]; exact hfine, hl', hfr, ht, fun h => absurd h hb1⟩, fun _ => by rw [h1]; exact hwm, fun b' last hg => ?_⟩
        refine hpre _ b' last h3 ?_
        have := hb2 _ _ _ _ _ hg
        rw [h1] at this
        exact this
      · trivial
    · exact ⟨rfl, _, t, ⟨hfine, hl, .item n hfr, ⟨_, _, rfl⟩, by simp⟩, hs, hpre⟩
  · trivial
  · trivial
  · trivial

/-- What is in front of `next_object_bytes`, and of `next_key_bytes`. -/
def KeyPre (strict : Care) (aim : Aim β) (H : Handler β) (R : Room) (begin : Bool) (tight : Prop) (l : List (Pos × Bytes)) (rest : Bytes)
    (b b' : β) (last : Bytes) : Prop :=
  if begin then
    ∃ (ws w : Bytes) (ms : Members) (x : Bytes) (b1 b2 : β), rest = ws ++ 123 :: (w ++ (ms.text ++ 125 :: x)) ∧ Blank ws ∧ (Blank w ∨ Doubled w) ∧ (tight → Blank w) ∧
      ms.Opens ∧ ms.Loose strict.safe ∧ ms.scan H R (names l) b = .done b1 ∧ H.end .object (names l) b1 = .done b2 ∧
      Tail strict aim H R l x b2 b' last
  else
    ∃ (a : Bytes) (more : Members) (x : Bytes) (b1 b2 : β), rest = a ++ (more.textMore ++ 125 :: x) ∧
      Blank a ∧ more.Loose strict.safe ∧
      more.scan H R (names l) b = .done b1 ∧ H.end .object (names l) b1 = .done b2 ∧ Tail strict aim H R l x b2 b' last

/-- What is in front of the value of a member, which may be consumed by the callback for its key. -/
def ValuePre (strict : Care) (aim : Aim β) (H : Handler β) (R : Room) (k : Bytes) (l : List (Pos × Bytes)) (rest : Bytes)
    (b b' : β) (last : Bytes) : Prop :=
  ∃ (ws : Bytes) (v : Val) (x : Bytes) (b1 : β), rest = ws ++ (v.text ++ x) ∧ Blank ws ∧ v.Loose strict.safe ∧
    H.around .none (k :: names l) v (v.scan H R (k :: names l)) b = .done b1 ∧ Tail strict aim H R ((.objectMiddle, k) :: l) x b1 b' last

/-- The result of `handle_object`. -/
def Keyed (F : Nat) (strict : Care) (aim : Aim β) (H : Handler β) (R : Room) (Pre : β → Bytes → Prop) (x : St β × SRes Pos) : Prop :=
  match x with
  | (st', .ok p) => Backs F strict aim H R p st' Pre
  | _ => True

theorem handleKey_back (hC : Sees cb H F strict) (begin : Bool) {st : St β} (hf : Fine F strict st.rj) {l : List (Pos × Bytes)}
    (hl : Holds st.pool R l) (hfr : Frames l) (hwarm : begin = false → 0 < st.rj.jidx) :
    Keyed F strict aim H R (KeyPre strict aim H R begin (0 < st.rj.jidx) l st.rj.rest st.baton) (handleKey F cb begin st) := by
  rw [handleKey_eq]
  have hstep : ∀ s' v, (if begin then st.rj.nextObjectBytes F else st.rj.nextKeyBytes F) = (s', .ok v) →
      Fine F strict s' ∧ 0 < s'.jidx ∧
      (v = none ∧ (∀ b2 b' last, H.end .object (names l) st.baton = .done b2 → Tail strict aim H R l s'.rest b2 b' last →
          KeyPre strict aim H R begin (0 < st.rj.jidx) l st.rj.rest st.baton b' last) ∨
        ∃ k, v = some k ∧ ∀ b' last, R.Fits (names l) k → ValuePre strict aim H R k l s'.rest st.baton b' last →
          KeyPre strict aim H R begin (0 < st.rj.jidx) l st.rj.rest st.baton b' last) := by
    intro s' v hok
    cases begin with
    | true =>
      rw [if_pos rfl] at hok
      obtain ⟨ws, L, hw, hL, hLt, hm, hcase⟩ := RJ.nextObject_any hf.usable.sync hf.len hf.usable.fuel hok
      refine ⟨hf.loop hm hok, loopUntilSuccess_warm (nextObject_eats _) hok, ?_⟩
      rcases hcase with ⟨rfl, e⟩ | ⟨k, m, rfl, hk, hsp, e⟩
      · refine .inl ⟨rfl, fun b2 b' last he ht => ?_⟩
        exact ⟨ws, L, .nil, _, st.baton, b2, by rw [e]; simp [Members.text], hw, hL, hLt, trivial, trivial, rfl, he, ht⟩
      · refine .inr ⟨k, rfl, fun b' last hfit hv => ?_⟩
        obtain ⟨ws', v, x, b1, h1, h2, h3, h4, b0, a, more, y, b2, b3, h5, h6, h7, h8, h9, h10, h11⟩ := hv
        refine ⟨ws, L, .cons [] k m ws' v a more, y, b2, b3, ?_, hw, hL, hLt, rfl,
          ⟨List.forall_mem_nil _, hk, hsp, h2, h3, h7, h8⟩, ?_, h10, h11⟩
        · rw [e, KeyText, h1, h6]; simp [Members.text]
        · simp only [Members.scan, if_pos hfit, h4, Out.bind, h5, h9]
    | false =>
      simp only [Bool.false_eq_true, if_false] at hok
      obtain ⟨hm, hcase⟩ := RJ.nextKey_any hf.usable.sync hf.len hf.usable.fuel (hwarm rfl) hok
      refine ⟨hf.loop hm hok, loopUntilSuccess_warm (nextKey_eats _) hok, ?_⟩
      rcases hcase with ⟨ws, rfl, hw, e⟩ | ⟨ws, L, k, m, rfl, hw, hL, hk, hsp, e⟩
      · refine .inl ⟨rfl, fun b2 b' last he ht => ?_⟩
        exact ⟨ws, .nil, _, st.baton, b2, by rw [e]; simp [Members.textMore], hw, trivial, rfl, he, ht⟩
      · refine .inr ⟨k, rfl, fun b' last hfit hv => ?_⟩
        obtain ⟨ws', v, x, b1, h1, h2, h3, h4, b0, a, more, y, b2, b3, h5, h6, h7, h8, h9, h10, h11⟩ := hv
        refine ⟨ws, .cons L k m ws' v a more, y, b2, b3, ?_, hw, ⟨hL, hk, hsp, h2, h3, h7, h8⟩, ?_, h10, h11⟩
        · rw [e, KeyText, h1, h6]; simp [Members.textMore]
        · simp only [Members.scan, if_pos hfit, h4, Out.bind, h5, h9]
  generalize (if begin then st.rj.nextObjectBytes F else st.rj.nextKeyBytes F) = x at hstep ⊢
  rcases x with ⟨s', v | e | _ | _⟩
  · obtain ⟨hfine, hwm, hcase⟩ := hstep s' v rfl
    rcases hcase with ⟨rfl, hpre⟩ | ⟨k, rfl, hpre⟩
    · simp only
      have he := endStep_sees hC .object { st with rj := s' } st.pool hl
      rcases hx : endStep cb .object (.of st.pool) { st with rj := s' } st.pool with ⟨st2, _ | e⟩
      · rw [hx] at he
        obtain ⟨h1, h2, h3⟩ := he
        simp only
        obtain ⟨e, t, rfl, ht, hb1, hb2⟩ := frames_ahead (strict := strict) (aim := aim) (H := H) (R := R) hfr
        have hl' : Holds st2.pool R (e :: t) := by rw [h2]; exact hl
        rw [hl'.topPos]
        refine ⟨_, ⟨by rw [h1]; exact hfine, hl', hfr, ht, fun h => absurd h hb1⟩, fun _ => by rw [h1]; exact hwm, fun b' last hg => ?_⟩
        refine hpre _ b' last h3 ?_
        have := hb2 _ _ _ _ _ hg
        rw [h1] at this
        exact this
      · trivial
    · simp only
      by_cases hfit : R.Fits (names l) k
      · obtain ⟨p', r, e, hp⟩ := hl.push .objectMiddle k hfit
        rw [e]
        simp only
        have ha := callAction_sees hC .none (st := { st with rj := s', pool := p' }) hfine hp
        rcases hx : callAction cb .none { st with rj := s', pool := p' } with ⟨st2, _ | _ | r⟩
        · rw [hx] at ha
          obtain ⟨e1, e2, e3⟩ := ha
          refine ⟨_, ⟨by rw [e1]; exact hfine, by rw [e2]; exact hp, .key k hfr, ⟨_, _, rfl⟩, by simp⟩, by intro h; simp at h, fun b' last hg => ?_⟩
          obtain ⟨ws, v, x, b1, h1, h2, _, h3, _, _, h4, h5⟩ := hg
          refine hpre b' last hfit ⟨ws, v, x, b1, by rw [← h1, e1], h2, h3, ?_, h5⟩
          exact (around_none (e3 v)).trans h4
        · rw [hx] at ha
          obtain ⟨hj, hwm, e2, ws, v, hw, _, hlo, _, hpt, e, e3⟩ := ha
          refine ⟨_, ⟨hj, by rw [e2]; exact hp, .key k hfr, ⟨_, _, rfl⟩, by simp⟩, fun _ => hwm, fun b' last hg => ?_⟩
          exact hpre b' last hfit ⟨ws, v, _, _, e, hw, hlo, around_consumed e3, hg⟩
        · rw [hx] at ha
          rcases r with r | r | _ | _
          · exact absurd rfl (ha r)
          · trivial
          · trivial
          · trivial
      · obtain ⟨p', er, e, _⟩ := hl.push_full .objectMiddle k hfit
        rw [e]; trivial
  · trivial
  · trivial
  · trivial

theorem handleObject_back (hC : Sees cb H F strict) {pos : Pos} {st : St β} {l : List (Pos × Bytes)} (hf : Fwd F strict R pos l st)
    (hp : pos = .objectBegin ∨ pos = .objectMiddle) (hwarm : Warm pos st.rj) :
    Keyed F strict aim H R (Ahead strict aim H R (0 < st.rj.jidx) pos l st.rj.rest st.baton) (handleObject F cb pos st) := by
  rw [handleObject_eq]
  rcases hp with rfl | rfl
  · rw [if_pos rfl]
    have ha := callAction_sees hC .object hf.fine hf.holds
    rcases hx : callAction cb .object st with ⟨st2, _ | _ | r⟩
    · rw [hx] at ha
      obtain ⟨e1, e2, e3⟩ := ha
      simp only
      have := handleKey_back (aim := aim) hC true (st := st2) (R := R) (by rw [e1]; exact hf.fine) (by rw [e2]; exact hf.holds) hf.frames
        (by simp)
      rcases hy : handleKey F cb true st2 with ⟨st3, p | e | _ | _⟩
      · rw [hy] at this
        obtain ⟨l', h1, h1w, h2⟩ := this
        refine ⟨l', h1, h1w, fun b' last hg => ?_⟩
        obtain ⟨ws, w, ms, x, b1, b2, g1, g2, g3, g3t, g4, g5, g6, g7, g8⟩ := h2 b' last hg
        rw [e1] at g1 g3t
        refine ⟨ws, .obj w ms, x, b2, by rw [g1]; simp [Val.text], g2, trivial, ⟨g3.imp id fun h => ⟨h, g4⟩, g5⟩, g3t, trivial, ?_, g8⟩
        simp only [Val.scan, around_none (e3 _), g6, Out.bind, g7]
      · trivial
      · trivial
      · trivial
    · rw [hx] at ha
      obtain ⟨hj, hwm, e2, ws, v, hw, hs, hlo, hti, hpt, e, e3⟩ := ha
      simp only
      obtain ⟨e', t, rfl, ht, hb1, hb2⟩ := frames_ahead (strict := strict) (aim := aim) (H := H) (R := R) hf.frames
      have hl' : Holds st2.pool R (e' :: t) := by rw [e2]; exact hf.holds
      rw [hl'.topPos]
      refine ⟨_, ⟨hj, hl', hf.frames, ht, fun h => absurd h hb1⟩, fun _ => hwm, fun b' last hg => ?_⟩
      exact ⟨ws, v, _, _, e, hw, hs, hlo, hti, hpt, consumed_scan (by decide) hs e3, hb2 _ _ _ _ _ hg⟩
    · rw [hx] at ha
      rcases r with r | r | _ | _
      · exact absurd rfl (ha r)
      · trivial
      · trivial
      · trivial
  · rw [if_neg (by simp)]
    obtain ⟨hfine, hl, hfr, ⟨n, t, rfl⟩, _⟩ := hf
    have hfr' : Frames t := by cases hfr; assumption
    obtain ⟨p', r, e, hp'⟩ := hl.pop
    rw [e]
    simp only
    have he := endStep_sees hC .none st p' hl
    rcases hx : endStep cb .none (.of st.pool) st p' with ⟨st2, _ | e⟩
    · rw [hx] at he
      obtain ⟨h1, h2, h3⟩ := he
      simp only
      have := handleKey_back (aim := aim) hC false (st := st2) (R := R) (l := t) (by rw [h1]; exact hfine) (by rw [h2]; exact hp') hfr'
        (fun _ => by rw [h1]; exact hwarm (.inr rfl))
      rcases hy : handleKey F cb false st2 with ⟨st3, p | e | _ | _⟩
      · rw [hy] at this
        obtain ⟨l', g1, g1w, g2⟩ := this
        refine ⟨l', g1, g1w, fun b' last hg => ?_⟩
        obtain ⟨a, more, x, b1, b2, k1, k2, k3, k4, k5, k6⟩ := g2 b' last hg
        rw [h1] at k1
        exact ⟨_, a, more, x, b1, b2, h3, k1, k2, k3, k4, k5, k6⟩
      · trivial
      · trivial
      · trivial
    · trivial

theorem handleArray_back (hC : Sees cb H F strict) {pos : Pos} {st : St β} {l : List (Pos × Bytes)} (hf : Fwd F strict R pos l st)
    (hp : pos = .arrayBegin ∨ pos = .arrayMiddle) (hwarm : Warm pos st.rj) :
    Itemed F strict aim H R (Ahead strict aim H R (0 < st.rj.jidx) pos l st.rj.rest st.baton) (handleArray F cb pos st) := by
  unfold handleArray
  rcases hp with rfl | rfl
  · rw [if_pos rfl]
    have ha := callAction_sees hC .array hf.fine hf.holds
    rcases hx : callAction cb .array st with ⟨st2, _ | _ | r⟩
    · rw [hx] at ha
      obtain ⟨e1, e2, e3⟩ := ha
      simp only
      have hl2 : Holds st2.pool R l := by rw [e2]; exact hf.holds
      by_cases hfit : R.Fits (names l) nameArray
      · obtain ⟨p', r, e, hp⟩ := hl2.push .arrayMiddle nameArray hfit
        rw [e]
        have hpre : ∀ b' last, ItemPre strict aim H R true nameArray l st2.rj.rest st2.baton b' last →
            Ahead strict aim H R (0 < st.rj.jidx) .arrayBegin l st.rj.rest st.baton b' last := by
          intro b' last h
          obtain ⟨w, items, x, b1, b2, g1, g2, g3, g4, g5, g6⟩ := h
          rw [e1] at g1
          refine ⟨[], .arr w items, x, b2, by rw [g1]; simp [Val.text], List.forall_mem_nil _, trivial, ⟨g2, g3⟩, fun _ => trivial, trivial, ?_, g6⟩
          simp only [Val.scan, around_none (e3 _), if_pos hfit, g4, Out.bind, g5]
        have := handleItem_back (aim := aim) hC true (st := { st2 with pool := p' }) (by simp only; rw [e1]; exact hf.fine) hp hf.frames
          (by intro _; simp only; rw [e1]; exact hf.array rfl) (by simp)
        simp only
        rcases hy : handleItem F cb true { st2 with pool := p' } with ⟨st3, ⟨_ | c, p⟩ | e | _ | _⟩
        · rw [hy] at this
          obtain ⟨l', h1, h1w, h2⟩ := this
          exact ⟨l', h1, h1w, fun b' last hg => hpre _ _ (h2 b' last hg)⟩
        · rw [hy] at this
          obtain ⟨h0, l', t, h1, h2, h3⟩ := this
          exact ⟨h0, l', t, h1, h2, fun b' last hg => hpre _ _ (h3 b' last hg)⟩
        · trivial
        · trivial
        · trivial
      · obtain ⟨p', er, e, _⟩ := hl2.push_full .arrayMiddle nameArray hfit
        rw [e]; trivial
    · rw [hx] at ha
      obtain ⟨hj, hwm, e2, ws, v, hw, hs, hlo, hti, hpt, e, e3⟩ := ha
      simp only
      obtain ⟨e', t, rfl, ht, hb1, hb2⟩ := frames_ahead (strict := strict) (aim := aim) (H := H) (R := R) hf.frames
      have hl' : Holds st2.pool R (e' :: t) := by rw [e2]; exact hf.holds
      rw [hl'.topPos]
      refine ⟨_, ⟨hj, hl', hf.frames, ht, fun h => absurd h hb1⟩, fun _ => hwm, fun b' last hg => ?_⟩
      exact ⟨ws, v, _, _, e, hw, hs, hlo, hti, hpt, consumed_scan (by decide) hs e3, hb2 _ _ _ _ _ hg⟩
    · rw [hx] at ha
      rcases r with r | r | _ | _
      · cases r
      · trivial
      · trivial
      · trivial
  · rw [if_neg (by simp)]
    obtain ⟨hfine, hl, hfr, ⟨n, t, rfl⟩, _⟩ := hf
    have hfr' : Frames t := by cases hfr; assumption
    exact handleItem_back (aim := aim) hC false hfine hl hfr' (by simp) (fun _ => hwarm (.inl rfl))

/-- What is in front of a turn at the position `pos`. -/
def TurnPre (strict : Care) (aim : Aim β) (H : Handler β) (R : Room) (tight : Prop) (pos : Pos) (l : List (Pos × Bytes)) (rest : Bytes)
    (b b' : β) (last : Bytes) : Prop :=
  if pos = .top then Entire strict aim H R False .none l rest b b' last else Ahead strict aim H R tight pos l rest b b' last

/-- The result of a turn. -/
def TurnDone (F : Nat) (strict : Care) (aim : Aim β) (H : Handler β) (R : Room) (pos : Pos) (l : List (Pos × Bytes)) (st : St β)
    (x : St β × Step) : Prop :=
  match x with
  | (st', .next p) => Backs F strict aim H R p st' (TurnPre strict aim H R (0 < st.rj.jidx) pos l st.rj.rest st.baton)
  | (st', .done r) => ∀ u, r = .ok u → pos = .top ∧ Blank st.rj.rest ∧ st'.baton = st.baton ∧ st'.rj.rest = []

theorem Turned.done {pos : Pos} {l : List (Pos × Bytes)} {st : St β} {Pre : β → Bytes → Prop} {x : St β × Step}
    (h : Turned F strict aim H R Pre x) (hp : ∀ b' last, Pre b' last → TurnPre strict aim H R (0 < st.rj.jidx) pos l st.rj.rest st.baton b' last) :
    TurnDone F strict aim H R pos l st x := by
  rcases x with ⟨st', p | r⟩
  · obtain ⟨l', h1, h1w, h2⟩ := h
    exact ⟨l', h1, h1w, fun b' last hg => hp _ _ (h2 b' last hg)⟩
  · exact fun u e => absurd e (h u)

theorem turn_back (hC : Sees cb H F strict) (hsse : opt.sseTokens = []) {pos : Pos} {st : St β} {l : List (Pos × Bytes)}
    (hf : Fwd F strict R pos l st) (hwarm : Warm pos st.rj) : TurnDone F strict aim H R pos l st (turn F cb opt pos st) := by
  unfold turn
  by_cases h1 : pos = .objectBegin ∨ pos = .objectMiddle
  · rw [if_pos h1]
    have := handleObject_back (aim := aim) hC hf h1 hwarm
    have hnt : pos ≠ .top := by rcases h1 with rfl | rfl <;> simp
    rcases hx : handleObject F cb pos st with ⟨st2, p | e | _ | _⟩
    · rw [hx] at this
      obtain ⟨l', g1, g1w, g2⟩ := this
      refine ⟨l', g1, g1w, fun b' last hg => ?_⟩
      unfold TurnPre
      rw [if_neg hnt]
      exact g2 b' last hg
    · intro u e; cases e
    · intro u e; cases e
    · intro u e; cases e
  rw [if_neg h1]
  by_cases h2 : pos = .arrayBegin ∨ pos = .arrayMiddle
  · rw [if_pos h2]
    have := handleArray_back (aim := aim) hC hf h2 hwarm
    have hnt : pos ≠ .top := by rcases h2 with rfl | rfl <;> simp
    rcases hx : handleArray F cb pos st with ⟨st2, ⟨_ | c, p⟩ | e | _ | _⟩
    · rw [hx] at this
      obtain ⟨l', g1, g1w, g2⟩ := this
      refine ⟨l', g1, g1w, fun b' last hg => ?_⟩
      unfold TurnPre
      rw [if_neg hnt]
      exact g2 b' last hg
    · rw [hx] at this
      obtain ⟨rfl, l', t, g1, g2, g3⟩ := this
      simp only [if_true]
      refine (onValue_turned (aim := aim) hC hsse g1 (.inr (.inl rfl)) g2).done fun b' last hw => ?_
      unfold TurnPre
      rw [if_neg hnt]
      exact g3 b' last hw
    · intro u e; cases e
    · intro u e; cases e
    · intro u e; cases e
  rw [if_neg h2]
  rcases hx : st.rj.peek F with ⟨rj, c | e | _ | _⟩
  · obtain ⟨ws, t, e, hw, hc, hs, hm⟩ := RJ.peek_text hf.fine.usable.sync hf.fine.len hf.fine.usable.fuel hx
    have hfine : Fine F strict rj := hf.fine.loop hm hx
    simp only
    have hpos : Resting (if pos = .objectBetweenKV then .objectMiddle else pos) := by
      cases pos <;> simp_all [Resting]
    have hfw : Fwd F strict R (if pos = .objectBetweenKV then .objectMiddle else pos) l { st with rj := rj } := by
      refine ⟨hfine, hf.holds, hf.frames, ?_, ?_⟩
      · have := hf.onTop
        cases pos <;> simp_all [OnTop]
      · cases pos <;> simp_all
    refine (onValue_turned (aim := aim) hC hsse hfw hpos hs).done fun b' last hwh => ?_
    obtain ⟨ws', v, x, b1, g1, g2, g3, g4, _, g5⟩ := hwh
    simp only at g1
    have hwh : Entire strict aim H R False .none l st.rj.rest st.baton b' last :=
      ⟨ws ++ ws', v, x, b1, by rw [e, ← hs, g1, List.append_assoc], (Blank.of_aws hw).append g2, g3, g4, False.elim, g5⟩
    unfold TurnPre
    by_cases ht : pos = .top
    · rw [if_pos ht]; exact hwh
    · rw [if_neg ht]
      have : pos = .objectBetweenKV := by cases pos <;> simp_all
      subst this
      exact hwh
  · simp only
    by_cases he : e.type = .json .eofWhileParsingValue
    · rw [if_pos he]
      by_cases ht : pos = .top
      · rw [if_neg (by simp [ht])]
        obtain ⟨ws, e1, hw, n, hm⟩ := RJ.peek_end hf.fine.usable.sync hf.fine.len hf.fine.usable.fuel hx (by intro kd h; rw [he] at h; cases h)
        have hu := hf.fine.usable.moved hm
        have hfu := hu.fuel
        unfold enoughFuel at hfu
        rcases hy : rj.finish F with ⟨rj2, r⟩
        simp only
        intro u hr
        rcases finishLoop_spec F rj hu.sync (by have := hu.len; omega) (by split <;> omega) with ⟨s', e2, hw2, hm2⟩ |
          ⟨s', x, ws2, c, t, e2, _⟩ | ⟨s', kd, x, e2, _⟩
        · rw [RJ.finish, e2] at hy
          simp only [Prod.mk.injEq] at hy
          obtain ⟨rfl, _⟩ := hy
          refine ⟨ht, by rw [e1]; exact hw.append (blank_ws hw2), rfl, ?_⟩
          rw [hm2.rest, List.drop_length]
        · rw [RJ.finish, e2] at hy
          simp only [Prod.mk.injEq] at hy
          obtain ⟨_, rfl⟩ := hy
          cases hr
        · rw [RJ.finish, e2] at hy
          simp only [Prod.mk.injEq] at hy
          obtain ⟨_, rfl⟩ := hy
          cases hr
      · rw [if_pos ht]
        intro u h; cases h
    · rw [if_neg he]
      intro u h; cases h
  · intro u h; cases h
  · intro u h; cases h

theorem mainLoop_back (hC : Sees cb H F strict) (hsse : opt.sseTokens = []) : ∀ (n : Nat) (pos : Pos) (l : List (Pos × Bytes)) (st st' : St β),
    Fwd F strict R pos l st → Warm pos st.rj → mainLoop F cb opt n true pos st = (st', .ok ()) →
    Ahead strict (ends strict opt.stopEarly H R) H R (0 < st.rj.jidx) pos l st.rj.rest st.baton st'.baton st'.rj.rest := by
  intro n
  induction n with
  | zero => intro pos l st st' _ _ h; simp [mainLoop] at h
  | succ n ih =>
    intro pos l st st' hf hwarm h
    simp only [mainLoop] at h
    by_cases hst : True ∧ opt.stopEarly = true ∧ pos = .top
    · rw [if_pos hst] at h
      simp only [Prod.mk.injEq, and_true] at h
      subst h
      obtain ⟨_, h1, rfl⟩ := hst
      obtain ⟨m, t, rfl⟩ := hf.onTop
      simp only [Ahead, Tail, ends, h1, if_true, and_self]
    · rw [if_neg hst] at h
      have ht := turn_back (aim := ends strict opt.stopEarly H R) hC hsse hf hwarm
      rcases hx : turn F cb opt pos st with ⟨st2, p | r⟩
      · rw [hx] at h ht
        obtain ⟨l', g1, g1w, g2⟩ := ht
        have := g2 _ _ (ih p l' st2 st' g1 g1w h)
        unfold TurnPre at this
        by_cases htop : pos = .top
        · rw [if_pos htop] at this
          subst htop
          obtain ⟨m, t, rfl⟩ := hf.onTop
          obtain ⟨ws, v, x, b1, k1, k2, _, k3, _, kp, k4, k5⟩ := this
          have hns : opt.stopEarly = false := by
            cases hb : opt.stopEarly with
            | false => rfl
            | true => exact absurd ⟨trivial, hb, rfl⟩ hst
          simp only [Ahead, Tail, ends, hns, Bool.false_eq_true, if_false] at k5 ⊢
          obtain ⟨ds, tail, j1, j2, jp, j3, j4⟩ := k5
          refine ⟨(ws, v) :: ds, tail, by rw [k1, j1]; rfl, ⟨k2, k3, j2⟩, ⟨j1 ▸ kp, jp⟩, ?_, j4⟩
          simp only [names, List.map_cons] at k4 j3 ⊢
          simp only [Docs.scan, k4, Out.bind, j3]
        · rw [if_neg htop] at this
          exact this
      · rw [hx] at h ht
        simp only [Prod.mk.injEq] at h
        obtain ⟨rfl, rfl⟩ := h
        obtain ⟨rfl, k1, k2, k3⟩ := ht () rfl
        obtain ⟨m, t, rfl⟩ := hf.onTop
        have hns : opt.stopEarly = false := by
          cases hb : opt.stopEarly with
          | false => rfl
          | true => exact absurd ⟨trivial, hb, rfl⟩ hst
        simp only [Ahead, Tail, ends, hns, Bool.false_eq_true, if_false]
        exact ⟨[], _, rfl, k1, trivial, by rw [k2]; rfl, k3⟩

/-- An `Ok` of `scan`. -/
theorem scan_back (hC : Sees cb H F strict) (hsse : opt.sseTokens = []) (turns : Nat) {st st' : St β} {l : List (Pos × Bytes)}
    (hf : Fine F strict st.rj) (hl : Holds st.pool R l) (h : scan turns F cb opt st = (st', .ok ())) :
    (Blank st.rj.rest ∧ st'.baton = st.baton ∧ st'.rj.rest = []) ∨
    Entire strict (ends strict opt.stopEarly H R) H R False .none ((.top, nameTop) :: l) st.rj.rest st.baton st'.baton st'.rj.rest := by
  unfold scan at h
  by_cases hfit : R.Fits (names l) nameTop
  · obtain ⟨p', r, e, hp⟩ := hl.push .top nameTop hfit
    rw [e] at h
    simp only at h
    cases turns with
    | zero => simp [mainLoop] at h
    | succ n =>
      simp only [mainLoop] at h
      rw [if_neg (by simp)] at h
      have hfw : Fwd F strict R .top ((.top, nameTop) :: l) { st with pool := p' } := ⟨hf, hp, .top _ _, ⟨_, _, rfl⟩, by simp⟩
      have ht := turn_back (aim := ends strict opt.stopEarly H R) hC hsse hfw (by intro h; simp at h)
      rcases hx : turn F cb opt .top { st with pool := p' } with ⟨st2, p | r⟩
      · rw [hx] at h ht
        obtain ⟨l', g1, g1w, g2⟩ := ht
        have := g2 _ _ (mainLoop_back hC hsse n p l' st2 st' g1 g1w h)
        exact .inr this
      · rw [hx] at h ht
        simp only [Prod.mk.injEq] at h
        obtain ⟨rfl, rfl⟩ := h
        obtain ⟨_, k⟩ := ht () rfl
        exact .inl k
  · obtain ⟨p', er, e, _⟩ := hl.push_full .top nameTop hfit
    rw [e] at h
    simp at h

end

end Verif.Scan
