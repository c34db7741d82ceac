import Verif.Scan.Calls
import Verif.Scan.Stack

/-!
# The main loop of `scan` in front of a well-formed document
-/

namespace Verif.Scan

open Verif.RJiter
open Verif.U8Pool (Pool PRes PoolError)

variable {β : Type}

/-! ## What is assumed of the callbacks -/

/-- The value an event can be reported for. -/
def Starts : Pseudo → Val → Prop
  | .atom, .atom _ => True
  | .array, .arr _ _ => True
  | .object, .obj _ _ => True
  | .none, _ => True
  | _, _ => False

/-- The state of the parser in front of an object with a first key is one from which `next_object_bytes` works. -/
def Val.Safe (s : RJ) : Val → Prop
  | .obj w (.cons b k _ _ _ _ _) => s.jidx = 0 → w ++ b = [] → s.b.nBytes ≤ 1 ∨ k.length + 3 ≤ s.b.nBytes
  | _ => True

/-- The callbacks do what the handler `H` says: `None` leaves the parser in front of the value, `ValueIsConsumed`
leaves it right behind the value. `I` is the condition on the parser that they may rely on and have to keep. -/
structure Implements (cb : Callbacks β) (H : Handler β) (I : RJ → Prop) (Rs : Rules) : Prop where
  start : ∀ (p : Pseudo) (path : List Bytes) (v : Val) (b : β) (s : RJ) (ws t : Bytes), I s → Starts p v → v.Meets Rs →
    Spaces ws → (p ≠ .none → ws = []) → v.HeadMeets Rs ws ∨ p ≠ .none → s.rest = ws ++ (v.text ++ t) → Ends v t →
    match cb.find p ⟨path, path.length⟩ b with
    | (b', none) => H.start p path v b = (b', .none)
    | (b', some act) =>
      match act s b' with
      | ((s', b''), .op .none) => H.start p path v b = (b'', .none) ∧ I s' ∧ (∃ n, n ≤ ws.length ∧ s.Moved s' n) ∧
          (s'.jidx = 0 → s.jidx = 0 ∧ s'.b.nBytes = s.b.nBytes)
      | ((s', b''), .op .valueIsConsumed) => H.start p path v b = (b'', .valueIsConsumed) ∧ I s' ∧
          s.Moved s' (ws.length + v.text.length) ∧ 0 < s'.jidx
      | ((_, b''), .op (.error m)) => H.start p path v b = (b'', .error m)
      | _ => False
  finish : ∀ (p : Pseudo) (path : List Bytes) (b : β),
    (match cb.findEnd p ⟨path, path.length⟩ b with
      | (b', none) => (b', none)
      | (b', some act) => act b') = H.finish p path b

/-! ## The error that reports a fault -/

def Faults (f : Fault) (st : St β) (e : SErr) : Prop :=
  match f with
  | .action m => e = .action m st.rj.currentIndex
  | .deep level => e = .maxNesting st.rj.currentIndex level
  | .keyTooLong => e = .internal st.rj.currentIndex "Failed to push key to context pool"

/-! ## The main loop from the end of a turn on -/

section
variable (F : Nat) (cb : Callbacks β) (opt : Options)

def resume : Nat → St β × Step → St β × SRes Unit
  | n, (st, .next p) => mainLoop F cb opt n true p st
  | _, (st, .done r) => (st, r)

/-- From `x` the loop comes to `y` with `k` turns. -/
def Leads (x y : St β × Step) (k : Nat) : Prop := ∀ n, resume F cb opt (n + k) x = resume F cb opt n y

end

section
variable {F : Nat} {cb : Callbacks β} {opt : Options}

theorem Leads.refl (x : St β × Step) : Leads F cb opt x x 0 := fun _ => rfl

theorem Leads.trans {x y z : St β × Step} {k k' : Nat} (h : Leads F cb opt x y k) (h' : Leads F cb opt y z k') :
    Leads F cb opt x z (k + k') := by
  intro n
  rw [show n + (k + k') = (n + k') + k by omega, h, h']

theorem Leads.step {p : Pos} {st : St β} (h : p ≠ .top) : Leads F cb opt (st, .next p) (turn F cb opt p st) 1 := by
  intro n
  simp only [resume]
  rw [mainLoop, if_neg (by simp [h])]
  rcases turn F cb opt p st with ⟨st', p' | r⟩ <;> rfl

end

/-- `x` leads to where the handler says: to position `pos` with the client's state, or to the error for the fault. -/
def Reaches (F : Nat) (cb : Callbacks β) (opt : Options) (x : St β × Step) (bound : Nat) (out : Out β) (pos : Pos)
    (good : St β → Prop) : Prop :=
  match out with
  | .done b => ∃ st k, k ≤ bound ∧ Leads F cb opt x (st, .next pos) k ∧ good st ∧ st.baton = b
  | .stop b f => ∃ st e k, k ≤ bound ∧ Leads F cb opt x (st, .done (.err e)) k ∧ st.baton = b ∧ Faults f st e

section
variable {F : Nat} {cb : Callbacks β} {opt : Options}

theorem Reaches.leads {x y : St β × Step} {k m : Nat} {out : Out β} {pos : Pos} {good good' : St β → Prop}
    (h : Leads F cb opt x y k) (hy : Reaches F cb opt y m out pos good) (hg : ∀ st, good st → good' st) {m' : Nat} (hm : k + m ≤ m') :
    Reaches F cb opt x m' out pos good' := by
  cases out with
  | done b =>
    obtain ⟨st, k', hk, hl, h1, h2⟩ := hy
    exact ⟨st, k + k', by omega, h.trans hl, hg _ h1, h2⟩
  | stop b f =>
    obtain ⟨st, e, k', hk, hl, h1, h2⟩ := hy
    exact ⟨st, e, k + k', by omega, h.trans hl, h1, h2⟩

theorem Reaches.bind {x : St β × Step} {m m' m'' : Nat} {out : Out β} {k : β → Out β} {pos pos' : Pos} {good good' : St β → Prop}
    (h : Reaches F cb opt x m out pos good)
    (hk : ∀ st, good st → Reaches F cb opt (st, .next pos) m' (k st.baton) pos' good') (hm : m + m' ≤ m'') :
    Reaches F cb opt x m'' (out.bind k) pos' good' := by
  cases out with
  | done b =>
    obtain ⟨st, k', hk', hl, h1, h2⟩ := h
    have := hk st h1
    rw [h2] at this
    exact this.leads hl (fun _ h => h) (by omega)
  | stop b f =>
    obtain ⟨st, e, k', hk', hl, h1, h2⟩ := h
    exact ⟨st, e, k', by omega, hl, h1, h2⟩

end

theorem Out.bind_assoc (o : Out β) (f g : β → Out β) : (o.bind f).bind g = o.bind fun b => (f b).bind g := by
  cases o <;> rfl

/-! ## One turn for an object -/

/-- `Ok(new_position) => position = new_position`, scan.rs lines 475-483. -/
def wrap : St β × SRes Pos → St β × Step
  | (st, .ok p) => (st, .next p)
  | (st, .err e) => (st, .done (.err e))
  | (st, .panic) => (st, .done .panic)
  | (st, .diverge) => (st, .done .diverge)

theorem turn_object (F : Nat) (cb : Callbacks β) (opt : Options) {p : Pos} (h : p = .objectBegin ∨ p = .objectMiddle) (st : St β) :
    turn F cb opt p st = wrap (handleObject F cb p st) := by
  unfold turn
  rw [if_pos h]
  rcases handleObject F cb p st with ⟨st', r⟩
  cases r <;> rfl

/-- What happens with a key that was read. -/
def afterKey (cb : Callbacks β) (key : Bytes) (st : St β) : St β × SRes Pos :=
  match st.pool.pushAssoc posLayout [Pos.objectMiddle.byte] key with
  | (p, .ok _) =>
    match callAction cb .none { st with pool := p } with
    | (st, .go) => (st, .ok .objectBetweenKV)
    | (st, .consumed) => (st, .ok .objectMiddle)
    | (st, .leave r) => (st, r.cast)
  | (p, .err e) => ({ st with pool := p }, .err (keyPushError e st.rj.currentIndex))
  | (p, .panic) => ({ st with pool := p }, .panic)

/-- What happens behind the last member. -/
def afterMembers (cb : Callbacks β) (st : St β) : St β × SRes Pos :=
  match cb.findEnd .object (.of st.pool) st.baton with
  | (b, act) =>
    match runEnd { st with baton := b } act with
    | (st, some e) => (st, .err e)
    | (st, none) => (st, topPos st "Context stack is empty when ending object")

theorem handleKey_some {F : Nat} {cb : Callbacks β} {begin : Bool} {st : St β} {rj : RJ} {key : Bytes}
    (h : (if begin then st.rj.nextObjectBytes F else st.rj.nextKeyBytes F) = (rj, .ok (some key))) :
    handleKey F cb begin st = afterKey cb key { st with rj := rj } := by
  unfold handleKey
  rw [h]
  rfl

theorem handleKey_none {F : Nat} {cb : Callbacks β} {begin : Bool} {st : St β} {rj : RJ}
    (h : (if begin then st.rj.nextObjectBytes F else st.rj.nextKeyBytes F) = (rj, .ok none)) :
    handleKey F cb begin st = afterMembers cb { st with rj := rj } := by
  unfold handleKey
  rw [h]
  rfl

section
variable {F : Nat} {cb : Callbacks β} {opt : Options} {H : Handler β} {M : Mode} {L : Nat} {R : Room}

/-- The result of a begin callback. -/
theorem callAction_spec (hI : Implements cb H (Inv M L F) (rules M L)) {p : Pseudo} {v : Val} {ws t : Bytes} {st : St β}
    {l : List (Pos × Bytes)} (hst : Holds st.pool R l) (h1 : Inv M L F st.rj) (h2 : Starts p v) (h3 : v.Meets (rules M L))
    (h4 : Spaces ws) (h5 : p ≠ .none → ws = []) (h6 : v.HeadMeets (rules M L) ws ∨ p ≠ .none) (h7 : st.rj.rest = ws ++ (v.text ++ t))
    (h8 : Ends v t) :
    match H.start p (names l) v st.baton with
    | (b, .none) => ∃ s', callAction cb p st = ({ st with rj := s', baton := b }, .go) ∧ Inv M L F s' ∧
        (∃ n, n ≤ ws.length ∧ st.rj.Moved s' n) ∧ (s'.jidx = 0 → st.rj.jidx = 0 ∧ s'.b.nBytes = st.rj.b.nBytes)
    | (b, .valueIsConsumed) => ∃ s', callAction cb p st = ({ st with rj := s', baton := b }, .consumed) ∧ Inv M L F s' ∧
        st.rj.Moved s' (ws.length + v.text.length) ∧ 0 < s'.jidx
    | (b, .error m) => ∃ s', callAction cb p st = ({ st with rj := s', baton := b }, .leave (.err (.action m s'.currentIndex))) := by
  have hx := hI.start p (names l) v st.baton st.rj ws t h1 h2 h3 h4 h5 h6 h7 h8
  unfold callAction
  rw [hst.ctx]
  rcases hf : cb.find p ⟨names l, (names l).length⟩ st.baton with ⟨b', act⟩
  rw [hf] at hx
  cases act with
  | none =>
    simp only at hx ⊢
    rw [hx]
    exact ⟨st.rj, rfl, h1, ⟨0, Nat.zero_le _, .refl h1.sync⟩, fun h => ⟨h, rfl⟩⟩
  | some act =>
    simp only at hx ⊢
    rcases ha : act st.rj b' with ⟨⟨s', b''⟩, o⟩
    rw [ha] at hx
    cases o with
    | op o =>
      cases o with
      | none =>
        simp only at hx ⊢
        obtain ⟨hx, h⟩ := hx
        rw [hx]
        exact ⟨s', rfl, h⟩
      | valueIsConsumed =>
        simp only at hx ⊢
        obtain ⟨hx, h⟩ := hx
        rw [hx]
        exact ⟨s', rfl, h⟩
      | error m =>
        simp only at hx ⊢
        rw [hx]
        exact ⟨s', rfl⟩
    | panic => exact hx.elim
    | diverge => exact hx.elim

/-- The result of an end callback. -/
theorem end_spec (hI : Implements cb H (Inv M L F) (rules M L)) {st : St β} {path : List Bytes} (p : Pseudo) (st' : St β) :
    (match cb.findEnd p ⟨path, path.length⟩ st.baton with
      | (b, act) => runEnd { st' with baton := b } act) =
    match H.finish p path st.baton with
    | (b, none) => ({ st' with baton := b }, none)
    | (b, some m) => ({ st' with baton := b }, some (.action m st'.rj.currentIndex)) := by
  have := hI.finish p path st.baton
  rw [← this]
  rcases cb.findEnd p ⟨path, path.length⟩ st.baton with ⟨b, act⟩
  cases act with
  | none => rfl
  | some act =>
    simp only [runEnd]
    rcases act b with ⟨b', o⟩
    cases o <;> rfl

/-- The state behind a value: the parser has moved over `n` bytes, the context is the old one. -/
def Behind (M : Mode) (L F : Nat) (R : Room) (l : List (Pos × Bytes)) (s : RJ) (n : Nat) (st : St β) : Prop :=
  Inv M L F st.rj ∧ s.Moved st.rj n ∧ Holds st.pool R l ∧ 0 < st.rj.jidx

theorem Behind.from {l : List (Pos × Bytes)} {s s' : RJ} {n k m : Nat} (h : s.Moved s' k) (hm : m = k + n) :
    ∀ st : St β, Behind M L F R l s' n st → Behind M L F R l s m st := by
  intro st ⟨h1, h2, h3, h4⟩
  refine ⟨h1, ?_, h3, h4⟩
  rw [hm]
  exact h.trans h2

variable (F cb opt H M L R) in
/-- Scanning the value `v`, whose first byte `c` is known. -/
def ValRuns (v : Val) : Prop :=
  v.Meets (rules M L) → ∀ (st : St β) (pos : Pos) (nm : Bytes) (l : List (Pos × Bytes)) (t : Bytes) (c : Byte) (r : Bytes),
    Inv M L F st.rj → Holds st.pool R ((pos, nm) :: l) → v.text = c :: r → st.rj.rest = v.text ++ t → Ends v t → v.Safe st.rj →
    Reaches F cb opt (onValue F cb opt c pos st) v.text.length (v.scan H R (nm :: names l) st.baton) pos
      (Behind M L F R ((pos, nm) :: l) st.rj v.text.length)

variable (F cb opt H M L R) in
/-- Scanning the rest of an array behind an item. -/
def ItemsRun (more : Items) : Prop :=
  more.Meets (rules M L) → ∀ (st : St β) (pos : Pos) (nm : Bytes) (l : List (Pos × Bytes)) (a t : Bytes),
    Inv M L F st.rj → Holds st.pool R ((.arrayMiddle, nameArray) :: (pos, nm) :: l) → Spaces a →
    st.rj.rest = a ++ (more.textMore ++ 93 :: t) →
    Reaches F cb opt (st, .next .arrayMiddle) (more.textMore.length + 1)
      ((more.scan H R (nameArray :: nm :: names l) st.baton).bind (H.end .array (nm :: names l))) pos
      (Behind M L F R ((pos, nm) :: l) st.rj (a.length + more.textMore.length + 1))

variable (F cb opt H M L R) in
/-- Scanning the rest of an object behind the value of the member with key `k`. -/
def MembersRun (more : Members) : Prop :=
  more.Meets (rules M L) → ∀ (st : St β) (pos : Pos) (k nm : Bytes) (l : List (Pos × Bytes)) (a t : Bytes),
    Inv M L F st.rj → Holds st.pool R ((.objectMiddle, k) :: (pos, nm) :: l) → Spaces a →
    st.rj.rest = a ++ (more.textMore ++ 125 :: t) →
    Reaches F cb opt (st, .next .objectMiddle) (more.textMore.length + 1)
      (((H.end .none (k :: nm :: names l) st.baton).bind (more.scan H R (nm :: names l))).bind (H.end .object (nm :: names l))) pos
      (Behind M L F R ((pos, nm) :: l) st.rj (a.length + more.textMore.length + 1))

/-! ## The parts of a turn -/

theorem afterMembers_run (hI : Implements cb H (Inv M L F) (rules M L)) {st : St β} {pos : Pos} {nm : Bytes} {l : List (Pos × Bytes)}
    (hst : Holds st.pool R ((pos, nm) :: l)) (hi : Inv M L F st.rj) (hj : 0 < st.rj.jidx) :
    Reaches F cb opt (wrap (afterMembers cb st)) 0 (H.end .object (nm :: names l) st.baton) pos
      (Behind M L F R ((pos, nm) :: l) st.rj 0) := by
  unfold afterMembers
  have hc := hst.ctx
  simp only [List.map_cons] at hc
  have he := end_spec hI (st := st) (path := nm :: names l) .object st
  rw [hc]
  rcases hf : cb.findEnd .object ⟨nm :: names l, (nm :: names l).length⟩ st.baton with ⟨b, act⟩
  rw [hf] at he
  simp only at he ⊢
  rw [he]
  unfold Handler.end
  rcases H.finish .object (nm :: names l) st.baton with ⟨b', o⟩
  cases o with
  | none =>
    simp only
    rw [Holds.topPos (st := { st with baton := b' }) hst]
    exact ⟨_, 0, Nat.le_refl _, .refl _, ⟨hi, .refl hi.sync, hst, hj⟩, rfl⟩
  | some m => exact ⟨_, _, 0, Nat.le_refl _, .refl _, rfl, rfl⟩

theorem ends_sep {a t : Bytes} {c : Byte} (ha : Spaces a) (hc : c = 44 ∨ c = 125 ∨ c = 93) (v : Val) : Ends v (a ++ c :: t) := by
  unfold Ends
  split
  · intro _
    refine ⟨?_, by simp⟩
    cases a with
    | nil => rcases hc with rfl | rfl | rfl <;> simp [EndsNumber, Digit]
    | cons x a =>
      have hx := ha x (by simp)
      rcases hx with rfl | rfl | rfl | rfl <;> simp [EndsNumber, Digit]
  · trivial

theorem Members.ends {a t : Bytes} (ha : Spaces a) (more : Members) (v : Val) : Ends v (a ++ (more.textMore ++ 125 :: t)) := by
  cases more with
  | nil => exact ends_sep ha (by simp) v
  | cons b k m m' v' a' more =>
    simp only [Members.textMore, List.cons_append]
    exact ends_sep ha (by simp) v

theorem Items.ends {a t : Bytes} (ha : Spaces a) (more : Items) (v : Val) : Ends v (a ++ (more.textMore ++ 93 :: t)) := by
  cases more with
  | nil => exact ends_sep ha (by simp) v
  | cons b v' a' more =>
    simp only [Items.textMore, List.cons_append]
    exact ends_sep ha (by simp) v

theorem Spaces.drop {ws : Bytes} (h : Spaces ws) (n : Nat) : Spaces (ws.drop n) := fun c hc => h c (List.mem_of_mem_drop hc)

theorem Spaces.append {a b : Bytes} (ha : Spaces a) (hb : Spaces b) : Spaces (a ++ b) := by
  intro x hx
  rcases List.mem_append.1 hx with hx | hx
  · exact ha x hx
  · exact hb x hx

theorem Val.HeadMeets.tail {v : Val} {ws : Bytes} (h : v.HeadMeets (rules M L) ws) (n : Nat) :
    v.HeadMeets (rules M L) (ws.drop n) := by
  unfold Val.HeadMeets at *
  split
  · rename_i w b k m _ _ _ _
    exact M.tail (ws.take n) _ _ _ _ (by rw [List.take_append_drop]; exact h)
  · trivial

/-- A `peek` in front of a value. -/
theorem Inv.peekValue {s : RJ} (h : Inv M L F s) {v : Val} {ws t : Bytes} (hv : v.Meets (rules M L)) (hw : Spaces ws)
    (hh : v.HeadMeets (rules M L) ws) (hrd : M.loose ∨ ws ≠ [] ∨ Ready s) (hr : s.rest = ws ++ (v.text ++ t)) :
    ∃ s' c r, s.peek F = (s', .ok c) ∧ v.text = c :: r ∧ Inv M L F s' ∧ s.Moved s' ws.length ∧ v.Safe s' := by
  obtain ⟨c, r, hc, h1, h2, h3⟩ := v.first hv
  obtain ⟨s', e, hi, hm⟩ := h.peek (ws := ws) (c := c) (t := r ++ t) (by rw [hr, hc]; rfl) hw h1 h2
  refine ⟨s', c, r, e, hc, hi, hm, ?_⟩
  unfold Val.Safe
  split
  · rename_i w b k m m' v' a more
    obtain ⟨hw1, hb1, _, hm1, _⟩ := hv
    have hx := M.peek s s' F c ws (w ++ b) k m (m' ++ (v'.text ++ (a ++ (more.textMore ++ 125 :: t)))) h.sync h.clean h.fuel h.mlen h.eight h.inv hrd hh hw
      (Spaces.append hw1 hb1) hm1
      (by rw [hr]; simp [Val.text, Members.text]) e
    exact hx
  · trivial

theorem turn_between {st : St β} {s' : RJ} {c : Byte} (h : st.rj.peek F = (s', .ok c)) :
    turn F cb opt .objectBetweenKV st = onValue F cb opt c .objectMiddle { st with rj := s' } := by
  unfold turn
  rw [if_neg (by decide), if_neg (by decide), h]
  rfl

theorem afterKey_run (hI : Implements cb H (Inv M L F) (rules M L)) {st : St β} {pos : Pos} {nm k m' a t : Bytes} {v : Val} {more : Members}
    {l : List (Pos × Bytes)} (hv : ValRuns F cb opt H M L R v) (hmore : MembersRun F cb opt H M L R more)
    (hi : Inv M L F st.rj) (hj : 0 < st.rj.jidx) (hst : Holds st.pool R ((pos, nm) :: l)) (hm' : Spaces m') (ha : Spaces a)
    (h1 : v.Meets (rules M L)) (h2 : v.HeadMeets (rules M L) m') (h3 : more.Meets (rules M L))
    (hr : st.rj.rest = m' ++ (v.text ++ (a ++ (more.textMore ++ 125 :: t)))) (b0 w0 : Bytes) :
    Reaches F cb opt (wrap (afterKey cb k st)) (v.text.length + more.textMore.length + 2)
      (((Members.cons b0 k w0 m' v a more).scan H R (nm :: names l) st.baton).bind (H.end .object (nm :: names l))) pos
      (Behind M L F R ((pos, nm) :: l) st.rj (m'.length + v.text.length + a.length + more.textMore.length + 1)) := by
  unfold afterKey
  simp only [Members.scan]
  by_cases hf : R.Fits (nm :: names l) k
  · obtain ⟨p', r, e, hp⟩ := hst.push .objectMiddle k hf
    rw [if_pos hf, e]
    simp only
    have hs := callAction_spec hI (p := .none) (v := v) (ws := m') (t := a ++ (more.textMore ++ 125 :: t)) (st := { st with pool := p' })
      hp hi (by unfold Starts; split <;> simp_all) h1 hm' (by simp) (.inl h2) hr (more.ends ha v)
    simp only [List.map_cons] at hs
    unfold Handler.around
    rcases hb : H.start .none (k :: nm :: names l) v st.baton with ⟨b, op⟩
    rw [hb] at hs
    cases op with
    | none =>
      simp only at hs ⊢
      obtain ⟨s1, e1, hi1, ⟨n, hn, hm1⟩, hj1⟩ := hs
      rw [e1]
      have hr1 : s1.rest = m'.drop n ++ (v.text ++ (a ++ (more.textMore ++ 125 :: t))) := by
        rw [hm1.rest]; show List.drop n st.rj.rest = _
        rw [hr, List.drop_append_of_le_length hn]
      obtain ⟨s2, c, r2, e2, hc, hi2, hm2, hsafe⟩ := hi1.peekValue h1 (Spaces.drop hm' n) (h2.tail n)
        (.inr (.inr fun h0 => absurd (hj1 h0).1 (Nat.ne_of_gt hj))) hr1
      have hr2 : s2.rest = v.text ++ (a ++ (more.textMore ++ 125 :: t)) := moved_rest hm2 hr1
      have hval := hv h1 ⟨s2, b, p'⟩ .objectMiddle k ((pos, nm) :: l) _ c r2 hi2 hp hc hr2 (more.ends ha v) hsafe
      have hm02 : st.rj.Moved s2 m'.length := by
        have := RJ.Moved.trans hm1 hm2
        rw [List.length_drop] at this
        rw [show m'.length = n + (m'.length - n) by omega]
        exact this
      have hlead : Leads F cb opt (wrap (({ st with pool := p', rj := s1, baton := b } : St β), .ok .objectBetweenKV))
          (onValue F cb opt c .objectMiddle ⟨s2, b, p'⟩) 1 := by
        have := Leads.step (F := F) (cb := cb) (opt := opt) (p := .objectBetweenKV) (st := { st with pool := p', rj := s1, baton := b }) (by decide)
        rw [turn_between (s' := s2) (c := c) e2] at this
        exact this
      refine Reaches.leads hlead ?_ (fun _ h => h) (m := v.text.length + (more.textMore.length + 1)) (by omega)
      simp only [Out.bind_assoc]
      refine Reaches.bind hval (fun st3 ⟨hi3, hm3, hp3, _⟩ => ?_) (Nat.le_refl _)
      have hr3 := moved_rest hm3 hr2
      have := hmore h3 st3 pos k nm l a t hi3 hp3 ha hr3
      simp only [Out.bind_assoc] at this
      exact this.leads (.refl _) (Behind.from (hm02.trans hm3) (by omega)) (Nat.le_of_eq (Nat.zero_add _))
    | valueIsConsumed =>
      simp only at hs ⊢
      obtain ⟨s1, e1, hi1, hm1, hj1⟩ := hs
      rw [e1]
      have hr1 : s1.rest = a ++ (more.textMore ++ 125 :: t) := by
        rw [hm1.rest]; show List.drop _ st.rj.rest = _
        rw [hr, ← List.append_assoc, ← List.length_append, List.drop_left]
      have := hmore h3 ⟨s1, b, p'⟩ pos k nm l a t hi1 hp ha hr1
      refine this.leads (.refl _) (Behind.from hm1 (by omega)) (by omega)
    | error m =>
      simp only at hs ⊢
      obtain ⟨s1, e1⟩ := hs
      rw [e1]
      exact ⟨_, _, 0, Nat.zero_le _, .refl _, rfl, rfl⟩
  · obtain ⟨p', er, e, hp, h4, h5⟩ := hst.push_full .objectMiddle k hf
    rw [if_neg hf, e]
    simp only
    simp only [List.length_cons, List.length_map] at h4 h5 ⊢
    by_cases hmx : R.max ≤ l.length + 1
    · rw [if_pos hmx, h4 hmx]
      exact ⟨_, _, 0, Nat.zero_le _, .refl _, rfl, rfl⟩
    · rw [if_neg hmx]
      refine ⟨_, _, 0, Nat.zero_le _, .refl _, rfl, ?_⟩
      have h6 := h5 hmx
      cases er with
      | sliceLimitExceeded m => exact absurd rfl (h6 m)
      | _ => rfl

/-! ## The rest of an object -/

theorem handleObject_middle (hI : Implements cb H (Inv M L F) (rules M L)) {st : St β} {k : Bytes} {q : Pos} {l : List (Pos × Bytes)}
    (hst : Holds st.pool R ((q, k) :: l)) : ∃ p', Holds p' R l ∧
    handleObject F cb .objectMiddle st = match H.finish .none (k :: names l) st.baton with
      | (b, none) => handleKey F cb false { st with baton := b, pool := p' }
      | (b, some m) => ({ st with baton := b, pool := p' }, .err (.action m st.rj.currentIndex)) := by
  obtain ⟨p', r, e, hp⟩ := hst.pop
  refine ⟨p', hp, ?_⟩
  unfold handleObject
  rw [if_neg (by decide)]
  have hc := hst.ctx
  simp only [List.map_cons] at hc
  have he := end_spec hI (st := st) (path := k :: names l) .none { st with pool := p' }
  rw [hc]
  rcases hf : cb.findEnd .none ⟨k :: names l, (k :: names l).length⟩ st.baton with ⟨b, act⟩
  rw [hf] at he
  simp only at he ⊢
  rw [e]
  simp only
  rw [he]
  rcases H.finish .none (k :: names l) st.baton with ⟨b', o⟩
  cases o <;> rfl

theorem membersRun_nil (hI : Implements cb H (Inv M L F) (rules M L)) : MembersRun F cb opt H M L R .nil := by
  intro _ st pos k nm l a t hi hst ha hr
  obtain ⟨p', hp, e⟩ := handleObject_middle (F := F) hI hst
  have hlead := Leads.step (F := F) (cb := cb) (opt := opt) (p := .objectMiddle) (st := st) (by decide)
  rw [turn_object F cb opt (.inr rfl), e] at hlead
  simp only [List.map_cons] at hlead
  unfold Handler.end
  rcases hf : H.finish .none (k :: nm :: names l) st.baton with ⟨b, o⟩
  rw [hf] at hlead
  cases o with
  | some m => exact ⟨_, _, 1, by omega, hlead, rfl, rfl⟩
  | none =>
    simp only [Out.bind, Members.scan]
    obtain ⟨s', e', hi', hm', hj'⟩ := hi.keyEnd (ws := a) (t := t) hr ha
    simp only at hlead
    rw [handleKey_none (rj := s') (by simpa using e')] at hlead
    refine Reaches.leads hlead (afterMembers_run hI (st := ⟨s', b, p'⟩) hp hi' hj') (Behind.from hm' ?_) (by omega)
    simp [Members.textMore]

theorem membersRun_cons (hI : Implements cb H (Inv M L F) (rules M L)) {b0 k0 w0 m' a0 : Bytes} {v : Val} {more : Members}
    (hv : ValRuns F cb opt H M L R v) (hmore : MembersRun F cb opt H M L R more) :
    MembersRun F cb opt H M L R (.cons b0 k0 w0 m' v a0 more) := by
  intro hmeets st pos k nm l a t hi hst ha hr
  obtain ⟨h1, h2, h3, h4, h5, h6, h7, h8⟩ := hmeets
  obtain ⟨p', hp, e⟩ := handleObject_middle (F := F) hI hst
  have hlead := Leads.step (F := F) (cb := cb) (opt := opt) (p := .objectMiddle) (st := st) (by decide)
  rw [turn_object F cb opt (.inr rfl), e] at hlead
  simp only [List.map_cons] at hlead
  unfold Handler.end
  rcases hf : H.finish .none (k :: nm :: names l) st.baton with ⟨b, o⟩
  rw [hf] at hlead
  cases o with
  | some m => exact ⟨_, _, 1, by omega, hlead, rfl, rfl⟩
  | none =>
    simp only [Out.bind]
    have hr' : st.rj.rest = a ++ 44 :: (b0 ++ 34 :: (k0 ++ 34 :: (w0 ++ 58 :: (m' ++ (v.text ++ (a0 ++ (more.textMore ++ 125 :: t))))))) := by
      rw [hr]; simp [Members.textMore]
    obtain ⟨s', e', hi', hm1, hj'⟩ := hi.nextKey h2.1 hr' ha h1 h3 h2.2
    have hr1 : s'.rest = m' ++ (v.text ++ (a0 ++ (more.textMore ++ 125 :: t))) := by
      rw [hm1.rest, hr']
      rw [show a ++ 44 :: (b0 ++ 34 :: (k0 ++ 34 :: (w0 ++ 58 :: (m' ++ (v.text ++ (a0 ++ (more.textMore ++ 125 :: t))))))) =
        (a ++ 44 :: (b0 ++ 34 :: (k0 ++ 34 :: (w0 ++ [58])))) ++ (m' ++ (v.text ++ (a0 ++ (more.textMore ++ 125 :: t)))) by simp]
      apply List.drop_left'
      simp; omega
    simp only at hlead
    rw [handleKey_some (rj := s') (key := k0) (by simpa using e')] at hlead
    have := afterKey_run hI (st := ⟨s', b, p'⟩) (a := a0) (t := t) (k := k0) hv hmore hi' hj' hp h4 h7 h5 h6 h8 hr1 b0 w0
    refine Reaches.leads hlead this (Behind.from hm1 ?_) ?_
    · simp [Members.textMore]; omega
    · simp [Members.textMore]; omega

/-! ## The rest of an array -/

/-- The match on the result of `handle_array`, scan.rs lines 484-500. -/
def wrapItem (F : Nat) (cb : Callbacks β) (opt : Options) : St β × SRes (Option Byte × Pos) → St β × Step
  | (st, .ok (some c, p)) =>
      if p = .arrayMiddle then onValue F cb opt c .arrayMiddle st
      else (st, .done (.err (.internal st.rj.currentIndex "Unexpected position from handle_array")))
  | (st, .ok (none, p)) => (st, .next p)
  | (st, .err e) => (st, .done (.err e))
  | (st, .panic) => (st, .done .panic)
  | (st, .diverge) => (st, .done .diverge)

theorem turn_array (F : Nat) (cb : Callbacks β) (opt : Options) {p : Pos} (h : p = .arrayBegin ∨ p = .arrayMiddle) (st : St β) :
    turn F cb opt p st = wrapItem F cb opt (handleArray F cb p st) := by
  unfold turn
  rw [if_neg (by rcases h with rfl | rfl <;> decide), if_pos h]
  rcases handleArray F cb p st with ⟨st', r⟩
  cases r with
  | ok x => rcases x with ⟨_ | c, p⟩ <;> rfl
  | _ => rfl

theorem handleItem_some {begin : Bool} {st : St β} {rj : RJ} {c : Byte}
    (h : (if begin then st.rj.knownArray F else st.rj.arrayStep F) = (rj, .ok (some c))) :
    wrapItem F cb opt (handleItem F cb begin st) = onValue F cb opt c .arrayMiddle { st with rj := rj } := by
  unfold handleItem
  rw [h]
  rfl

/-- What happens behind the last item, when the array's entry is gone. -/
def afterItems (cb : Callbacks β) (st : St β) : St β × SRes (Option Byte × Pos) :=
  match cb.findEnd .array (.of st.pool) st.baton with
  | (b, act) =>
    match runEnd { st with baton := b } act with
    | (st, some e) => (st, .err e)
    | (st, none) =>
      match topPos st "Context stack is empty when ending array" with
      | .ok pos => (st, .ok (none, pos))
      | .err e => (st, .err e)
      | .panic => (st, .panic)
      | .diverge => (st, .diverge)

theorem handleItem_end {begin : Bool} {st : St β} {rj : RJ} {p : Pool} {r : Bytes × Bytes}
    (h : (if begin then st.rj.knownArray F else st.rj.arrayStep F) = (rj, .ok none))
    (e : st.pool.popAssoc posLayout = (p, .ok (some r))) :
    handleItem F cb begin st = afterItems cb { st with rj := rj, pool := p } := by
  unfold handleItem
  rw [h]
  show (match st.pool.popAssoc posLayout with
    | (p, .ok (some _)) => afterItems cb { st with rj := rj, pool := p }
    | (p, .ok none) => _
    | (p, _) => _) = _
  rw [e]

theorem handleItem_none (hI : Implements cb H (Inv M L F) (rules M L)) {begin : Bool} {st : St β} {rj : RJ} {pos q : Pos} {nm nm' : Bytes}
    {l : List (Pos × Bytes)} (hst : Holds st.pool R ((q, nm') :: (pos, nm) :: l)) (hi : Inv M L F rj) (hj : 0 < rj.jidx)
    (h : (if begin then st.rj.knownArray F else st.rj.arrayStep F) = (rj, .ok none)) :
    Reaches F cb opt (wrapItem F cb opt (handleItem F cb begin st)) 0 (H.end .array (nm :: names l) st.baton) pos
      (Behind M L F R ((pos, nm) :: l) rj 0) := by
  obtain ⟨p', r, e, hp⟩ := hst.pop
  rw [handleItem_end h e]
  unfold afterItems
  have hc := hp.ctx
  simp only [List.map_cons] at hc
  have he := end_spec hI (st := st) (path := nm :: names l) .array { st with rj := rj, pool := p' }
  rw [hc]
  rcases hf : cb.findEnd .array ⟨nm :: names l, (nm :: names l).length⟩ st.baton with ⟨b, act⟩
  rw [hf] at he
  simp only at he ⊢
  rw [he]
  unfold Handler.end
  rcases H.finish .array (nm :: names l) st.baton with ⟨b', o⟩
  cases o with
  | none =>
    simp only
    rw [Holds.topPos (st := { st with rj := rj, pool := p', baton := b' }) hp]
    exact ⟨_, 0, Nat.le_refl _, .refl _, ⟨hi, .refl hi.sync, hp, hj⟩, rfl⟩
  | some m => exact ⟨_, _, 0, Nat.le_refl _, .refl _, rfl, rfl⟩

theorem handleArray_middle {st : St β} : handleArray F cb .arrayMiddle st = handleItem F cb false st := by
  unfold handleArray
  rw [if_neg (by decide)]

theorem itemsRun_nil (hI : Implements cb H (Inv M L F) (rules M L)) : ItemsRun F cb opt H M L R .nil := by
  intro _ st pos nm l a t hi hst ha hr
  obtain ⟨s', e', hi', hm', hj'⟩ := hi.arrayEnd (ws := a) (t := t) hr ha
  have hlead := Leads.step (F := F) (cb := cb) (opt := opt) (p := .arrayMiddle) (st := st) (by decide)
  rw [turn_array F cb opt (.inr rfl), handleArray_middle] at hlead
  have := handleItem_none (opt := opt) hI (begin := false) hst hi' hj' (by simpa using e')
  refine Reaches.leads hlead this (Behind.from hm' ?_) (by omega)
  simp [Items.textMore]

theorem Val.safe_pos {v : Val} {s : RJ} (h : 0 < s.jidx) : v.Safe s := by
  unfold Val.Safe
  split
  · intro h0; omega
  · trivial

/-- An item whose first byte is known, and the items behind it. -/
theorem item_run {v : Val} {more : Items} (hv : ValRuns F cb opt H M L R v) (hmore : ItemsRun F cb opt H M L R more)
    {st : St β} {pos : Pos} {nm a t : Bytes} {c : Byte} {r : Bytes} {l : List (Pos × Bytes)} (hi : Inv M L F st.rj) (hj : 0 < st.rj.jidx)
    (hst : Holds st.pool R ((.arrayMiddle, nameArray) :: (pos, nm) :: l)) (ha : Spaces a) (h1 : v.Meets (rules M L))
    (h2 : more.Meets (rules M L)) (hc : v.text = c :: r) (hr : st.rj.rest = v.text ++ (a ++ (more.textMore ++ 93 :: t))) (b0 : Bytes) :
    Reaches F cb opt (onValue F cb opt c .arrayMiddle st) (v.text.length + more.textMore.length + 1)
      (((Items.cons b0 v a more).scan H R (nameArray :: nm :: names l) st.baton).bind (H.end .array (nm :: names l))) pos
      (Behind M L F R ((pos, nm) :: l) st.rj (v.text.length + a.length + more.textMore.length + 1)) := by
  have hval := hv h1 st .arrayMiddle nameArray ((pos, nm) :: l) _ c r hi hst hc hr (more.ends ha v) (v.safe_pos hj)
  simp only [Items.scan, Out.bind_assoc]
  refine Reaches.bind hval (fun st3 ⟨hi3, hm3, hp3, _⟩ => ?_) (m' := more.textMore.length + 1) (by omega)
  have hr3 := moved_rest hm3 hr
  have := hmore h2 st3 pos nm l a t hi3 hp3 ha hr3
  exact this.leads (.refl _) (Behind.from hm3 (by omega)) (Nat.le_of_eq (Nat.zero_add _))

theorem itemsRun_cons {b0 a0 : Bytes} {v : Val} {more : Items} (hv : ValRuns F cb opt H M L R v)
    (hmore : ItemsRun F cb opt H M L R more) : ItemsRun F cb opt H M L R (.cons b0 v a0 more) := by
  intro hmeets st pos nm l a t hi hst ha hr
  obtain ⟨h1, h2, h3, h4⟩ := hmeets
  obtain ⟨c, r, hc, hc1, hc2, hc3⟩ := v.first h2
  have hr' : st.rj.rest = a ++ 44 :: (b0 ++ c :: (r ++ (a0 ++ (more.textMore ++ 93 :: t)))) := by
    rw [hr]; simp [Items.textMore, hc]
  obtain ⟨s', e', hi', hm', hj⟩ := hi.arrayComma hr' ha h1 hc1 hc2 hc3
  have hr1 : s'.rest = v.text ++ (a0 ++ (more.textMore ++ 93 :: t)) := by
    rw [hm'.rest, hr', hc]
    rw [show a ++ 44 :: (b0 ++ c :: (r ++ (a0 ++ (more.textMore ++ 93 :: t)))) =
      (a ++ 44 :: b0) ++ (c :: (r ++ (a0 ++ (more.textMore ++ 93 :: t)))) by simp]
    apply List.drop_left'
    simp; omega
  have hlead := Leads.step (F := F) (cb := cb) (opt := opt) (p := .arrayMiddle) (st := st) (by decide)
  rw [turn_array F cb opt (.inr rfl), handleArray_middle, handleItem_some (rj := s') (c := c) (by simpa using e')] at hlead
  have := item_run hv hmore (st := { st with rj := s' }) hi' hj hst h3 h2 h4 hc hr1 b0
  refine Reaches.leads hlead this (Behind.from hm' ?_) ?_
  · simp [Items.textMore]; omega
  · simp [Items.textMore]; omega

/-! ## Values -/

theorem valRuns_atom (hI : Implements cb H (Inv M L F) (rules M L)) (tok : Bytes) : ValRuns F cb opt H M L R (.atom tok) := by
  intro hmeets st pos nm l t c r hi hst hc hr he _
  have ha : IsAtom (fun n => n.length + 1 ≤ L) M.str tok := hmeets
  obtain ⟨c', r', hc', _, _, _, h91, h123⟩ := atom_first ha
  have hcc : c = c' := by
    have : tok = c :: r := hc
    rw [this] at hc'
    simp only [List.cons.injEq] at hc'
    exact hc'.1
  subst hcc
  unfold onValue
  rw [if_neg h91, if_neg h123]
  have hs := callAction_spec hI (p := .atom) (v := .atom tok) (ws := []) (t := t) (st := st) hst hi trivial hmeets (by simp [Spaces])
    (by simp) (.inr (by decide)) hr he
  simp only [List.map_cons] at hs
  simp only [Val.scan, Handler.around]
  rcases hb : H.start .atom (nm :: names l) (.atom tok) st.baton with ⟨b, op⟩
  rw [hb] at hs
  cases op with
  | none =>
    simp only at hs ⊢
    obtain ⟨s1, e1, hi1, ⟨n, hn, hm1⟩, _⟩ := hs
    have hn0 : n = 0 := by simpa using hn
    subst hn0
    rw [e1]
    obtain ⟨s2, e2, hi2, hm2, hj2⟩ := hi1.skip ha hc he (by rw [hm1.rest]; exact hr)
    simp only
    rw [e2]
    refine ⟨_, 0, Nat.zero_le _, .refl _, ⟨hi2, ?_, hst, hj2⟩, rfl⟩
    have := hm1.trans hm2
    rw [Nat.zero_add] at this
    exact this
  | valueIsConsumed =>
    simp only at hs ⊢
    obtain ⟨s1, e1, hi1, hm1, hj1⟩ := hs
    rw [e1]
    refine ⟨_, 0, Nat.zero_le _, .refl _, ⟨hi1, ?_, hst, hj1⟩, rfl⟩
    simpa using hm1
  | error m =>
    simp only at hs ⊢
    obtain ⟨s1, e1⟩ := hs
    rw [e1]
    exact ⟨_, _, 0, Nat.zero_le _, .refl _, rfl, rfl⟩

theorem valRuns_arr (hI : Implements cb H (Inv M L F) (rules M L)) (w : Bytes) (items : Items)
    (hitems : match items with
      | .nil => True
      | .cons _ v _ more => ValRuns F cb opt H M L R v ∧ ItemsRun F cb opt H M L R more) :
    ValRuns F cb opt H M L R (.arr w items) := by
  intro hmeets st pos nm l t c r hi hst hc hr he _
  have hc91 : c = 91 := by
    simp only [Val.text, List.cons.injEq] at hc
    exact hc.1.symm
  subst hc91
  unfold onValue
  rw [if_pos rfl]
  have hlead := Leads.step (F := F) (cb := cb) (opt := opt) (p := .arrayBegin) (st := st) (by decide)
  rw [turn_array F cb opt (.inl rfl)] at hlead
  have hlen : 1 ≤ (Val.arr w items).text.length := by simp [Val.text]
  have hs := callAction_spec hI (p := .array) (v := .arr w items) (ws := []) (t := t) (st := st) hst hi trivial hmeets (by simp [Spaces])
    (by simp) (.inr (by decide)) hr he
  simp only [List.map_cons] at hs
  unfold handleArray at hlead
  rw [if_pos rfl] at hlead
  simp only [Val.scan, Handler.around]
  rcases hb : H.start .array (nm :: names l) (.arr w items) st.baton with ⟨b, op⟩
  rw [hb] at hs
  cases op with
  | none =>
    simp only at hs ⊢
    obtain ⟨s1, e1, hi1, ⟨n, hn, hm1⟩, _⟩ := hs
    have hn0 : n = 0 := by simpa using hn
    subst hn0
    rw [e1] at hlead
    simp only at hlead
    by_cases hf : R.Fits (nm :: names l) nameArray
    · obtain ⟨p', r', e, hp⟩ := hst.push .arrayMiddle nameArray hf
      rw [if_pos hf]
      rw [e] at hlead
      simp only at hlead
      obtain ⟨hw, hits⟩ := hmeets
      have hr1 : s1.rest = 91 :: (w ++ (items.text ++ 93 :: t)) := by
        rw [hm1.rest, hr]; simp [Val.text]
      cases items with
      | nil =>
        obtain ⟨s2, e2, hi2, hm2, hj2⟩ := hi1.knownArray (ws := w) (c := 93) (t := t) hr1 hw (by unfold Space; decide) (by decide)
        have := handleItem_none (opt := opt) hI (begin := true) (st := ⟨s1, b, p'⟩) hp hi2 hj2 (by simpa using e2)
        refine Reaches.leads hlead this (Behind.from (hm1.trans hm2) ?_) (by omega)
        simp [Val.text, Items.text]; omega
      | cons b0 v a0 more =>
        obtain ⟨hv, hmore⟩ := hitems
        obtain ⟨h1, h2, h3, h4⟩ := hits
        obtain ⟨c, r2, hc, hc1, hc2, hc3⟩ := v.first h2
        obtain ⟨s2, e2, hi2, hm2, hj⟩ := hi1.knownArray (ws := w ++ b0) (c := c) (t := r2 ++ (a0 ++ (more.textMore ++ 93 :: t)))
          (by rw [hr1]; simp [Items.text, hc]) (Spaces.append hw h1) hc1 hc2
        rw [if_neg hc3] at e2 hm2
        rw [handleItem_some (rj := s2) (c := c) (by simpa using e2)] at hlead
        have hr2 : s2.rest = v.text ++ (a0 ++ (more.textMore ++ 93 :: t)) := by
          rw [hm2.rest, hr1]
          simp only [Items.text, List.append_assoc]
          rw [show 91 :: (w ++ (b0 ++ (v.text ++ (a0 ++ (more.textMore ++ 93 :: t))))) =
            (91 :: (w ++ b0)) ++ (v.text ++ (a0 ++ (more.textMore ++ 93 :: t))) by simp]
          apply List.drop_left'
          simp; omega
        have := item_run hv hmore (st := ⟨s2, b, p'⟩) hi2 hj hp h3 h2 h4 hc hr2 b0
        refine Reaches.leads hlead this (Behind.from (hm1.trans hm2) ?_) ?_
        · simp [Val.text, Items.text]; omega
        · simp [Val.text, Items.text]; omega
    · obtain ⟨p', er, e, hp, _⟩ := hst.push_full .arrayMiddle nameArray hf
      rw [if_neg hf]
      rw [e] at hlead
      refine ⟨_, _, 1, hlen, hlead, rfl, ?_⟩
      simp [Faults, hp.len]
  | valueIsConsumed =>
    simp only at hs ⊢
    obtain ⟨s1, e1, hi1, hm1, hj1⟩ := hs
    rw [e1] at hlead
    simp only at hlead
    rw [Holds.topPos (st := { st with rj := s1, baton := b }) hst] at hlead
    refine ⟨_, 1, hlen, hlead, ⟨hi1, ?_, hst, hj1⟩, rfl⟩
    simpa using hm1
  | error m =>
    simp only at hs ⊢
    obtain ⟨s1, e1⟩ := hs
    rw [e1] at hlead
    exact ⟨_, _, 1, hlen, hlead, rfl, rfl⟩

theorem valRuns_obj (hI : Implements cb H (Inv M L F) (rules M L)) (w : Bytes) (members : Members)
    (hmembers : match members with
      | .nil => True
      | .cons _ _ _ _ v _ more => ValRuns F cb opt H M L R v ∧ MembersRun F cb opt H M L R more) :
    ValRuns F cb opt H M L R (.obj w members) := by
  intro hmeets st pos nm l t c r hi hst hc hr he hsafe
  have hc123 : c = 123 := by
    simp only [Val.text, List.cons.injEq] at hc
    exact hc.1.symm
  subst hc123
  unfold onValue
  rw [if_neg (by decide), if_pos rfl]
  have hlead := Leads.step (F := F) (cb := cb) (opt := opt) (p := .objectBegin) (st := st) (by decide)
  rw [turn_object F cb opt (.inl rfl)] at hlead
  have hlen : 1 ≤ (Val.obj w members).text.length := by simp [Val.text]
  have hs := callAction_spec hI (p := .object) (v := .obj w members) (ws := []) (t := t) (st := st) hst hi trivial hmeets (by simp [Spaces])
    (by simp) (.inr (by decide)) hr he
  simp only [List.map_cons] at hs
  unfold handleObject at hlead
  rw [if_pos rfl] at hlead
  simp only [Val.scan, Handler.around]
  rcases hb : H.start .object (nm :: names l) (.obj w members) st.baton with ⟨b, op⟩
  rw [hb] at hs
  cases op with
  | none =>
    simp only at hs ⊢
    obtain ⟨s1, e1, hi1, ⟨n, hn, hm1⟩, hobj⟩ := hs
    have hn0 : n = 0 := by simpa using hn
    subst hn0
    rw [e1] at hlead
    simp only at hlead
    obtain ⟨hw, hmem⟩ := hmeets
    have hr1 : s1.rest = 123 :: (w ++ (members.text ++ 125 :: t)) := by
      rw [hm1.rest, hr]; simp [Val.text]
    cases members with
    | nil =>
      obtain ⟨s2, e2, hi2, hm2, hj2⟩ := hi1.objectEmpty (ws := w) (t := t) hr1 hw
      rw [handleKey_none (rj := s2) (by simpa using e2)] at hlead
      have := afterMembers_run (opt := opt) hI (st := ⟨s2, b, st.pool⟩) hst hi2 hj2
      refine Reaches.leads hlead this (Behind.from (hm1.trans hm2) ?_) (by omega)
      simp [Val.text, Members.text]; omega
    | cons b0 k0 w0 m' v a0 more =>
      obtain ⟨hv, hmore⟩ := hmembers
      obtain ⟨h1, h2, h3, h4, h5, h6, h7, h8⟩ := hmem
      obtain ⟨s2, e2, hi2, hm2, hj2⟩ := hi1.objectKey (ws := w ++ b0) (body := k0) (w2 := w0)
        (t := m' ++ (v.text ++ (a0 ++ (more.textMore ++ 125 :: t)))) h2.1
        (by rw [hr1]; simp [Members.text]) (Spaces.append hw h1) h3 h2.2 (by
          intro h0
          obtain ⟨h0', h0''⟩ := hobj h0
          rw [h0'']
          exact hsafe h0')
      rw [handleKey_some (rj := s2) (key := k0) (by simpa using e2)] at hlead
      have hr2 : s2.rest = m' ++ (v.text ++ (a0 ++ (more.textMore ++ 125 :: t))) := by
        rw [hm2.rest, hr1]
        simp only [Members.text, List.append_assoc, List.cons_append]
        rw [show 123 :: (w ++ (b0 ++ 34 :: (k0 ++ 34 :: (w0 ++ 58 :: (m' ++ (v.text ++ (a0 ++ (more.textMore ++ 125 :: t)))))))) =
          (123 :: (w ++ (b0 ++ 34 :: (k0 ++ 34 :: (w0 ++ [58]))))) ++ (m' ++ (v.text ++ (a0 ++ (more.textMore ++ 125 :: t)))) by simp]
        apply List.drop_left'
        simp; omega
      have := afterKey_run hI (st := ⟨s2, b, st.pool⟩) (a := a0) (t := t) (k := k0) hv hmore hi2 hj2 hst h4 h7 h5 h6 h8 hr2 b0 w0
      refine Reaches.leads hlead this (Behind.from (hm1.trans hm2) ?_) ?_
      · simp [Val.text, Members.text]; omega
      · simp [Val.text, Members.text]; omega
  | valueIsConsumed =>
    simp only at hs ⊢
    obtain ⟨s1, e1, hi1, hm1, hj1⟩ := hs
    rw [e1] at hlead
    simp only at hlead
    rw [Holds.topPos (st := { st with rj := s1, baton := b }) hst] at hlead
    refine ⟨_, 1, hlen, hlead, ⟨hi1, ?_, hst, hj1⟩, rfl⟩
    simpa using hm1
  | error m =>
    simp only at hs ⊢
    obtain ⟨s1, e1⟩ := hs
    rw [e1] at hlead
    exact ⟨_, _, 1, hlen, hlead, rfl, rfl⟩

mutual
/-- The main loop scans every value as the specification says. -/
theorem valRuns (hI : Implements cb H (Inv M L F) (rules M L)) : ∀ v, ValRuns F cb opt H M L R v
  | .atom tok => valRuns_atom hI tok
  | .arr w .nil => valRuns_arr hI w .nil trivial
  | .arr w (.cons b v a more) => valRuns_arr hI w (.cons b v a more) ⟨valRuns hI v, itemsRun hI more⟩
  | .obj w .nil => valRuns_obj hI w .nil trivial
  | .obj w (.cons b k m m' v a more) => valRuns_obj hI w (.cons b k m m' v a more) ⟨valRuns hI v, membersRun hI more⟩
theorem itemsRun (hI : Implements cb H (Inv M L F) (rules M L)) : ∀ more, ItemsRun F cb opt H M L R more
  | .nil => itemsRun_nil hI
  | .cons _ v _ more => itemsRun_cons (valRuns hI v) (itemsRun hI more)
theorem membersRun (hI : Implements cb H (Inv M L F) (rules M L)) : ∀ more, MembersRun F cb opt H M L R more
  | .nil => membersRun_nil hI
  | .cons _ _ _ _ v _ more => membersRun_cons hI (valRuns hI v) (membersRun hI more)
end

end

end Verif.Scan
