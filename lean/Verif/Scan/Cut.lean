import Verif.Scan.CutCalls
import Verif.Scan.Run

/-!
# The main loop of `scan` on input that is cut off inside an array or object

The invariant: what is in front of the parser, continued by the missing text `y`, is the rest of a stream of documents
as seen from the current position; or a number was cut in two by the parser, and its other half comes next.
-/

namespace Verif.Scan

open Verif.RJiter RJ Jiter
open Verif.U8Pool (Pool PRes PoolError)

variable {β : Type} {ascii : Bool} {F : Nat} {y : Bytes}

/-- The value is a number. -/
def Val.IsNum : Val → Prop
  | .atom tok => Number tok
  | _ => False

/-- Documents of which the last `n` bytes are missing: the missing bytes do not reach the start of any of them, and
none of them is a number. -/
def CutDocs (Rs : Rules) (n : Nat) : Docs → Prop
  | [] => True
  | (b, v) :: dl => Spaces b ∧ v.Meets Rs ∧ ¬ v.IsNum ∧ n < (v.text ++ Docs.text dl []).length ∧ CutDocs Rs n dl

/-- What follows a value, given the positions on the stack. -/
inductive Open (Rs : Rules) (one : Bool) (n : Nat) : List Pos → Bytes → Prop where
  | top (dl : Docs) (ps : List Pos) : CutDocs Rs n dl → (one = true → dl = []) → Open Rs one n (.top :: ps) (Docs.text dl [])
  | arr (a : Bytes) (more : Items) (ps : List Pos) (x : Bytes) : Spaces a → more.Meets Rs → Open Rs one n ps x →
      Open Rs one n (.arrayMiddle :: ps) (a ++ (more.textMore ++ 93 :: x))
  | obj (a : Bytes) (more : Members) (ps : List Pos) (x : Bytes) : Spaces a → more.Meets Rs → Open Rs one n ps x →
      Open Rs one n (.objectMiddle :: ps) (a ++ (more.textMore ++ 125 :: x))

/-- What follows a position. -/
def At (Rs : Rules) (one : Bool) (n : Nat) (pos : Pos) (ps : List Pos) (z : Bytes) : Prop :=
  match pos with
  | .arrayBegin => ∃ w, ∃ items : Items, ∃ x, z = 91 :: (w ++ (items.text ++ 93 :: x)) ∧ Spaces w ∧ items.Meets Rs ∧ Open Rs one n ps x
  | .objectBegin => ∃ w, ∃ members : Members, ∃ x, z = 123 :: (w ++ (members.text ++ 125 :: x)) ∧ Spaces w ∧ members.Meets Rs ∧ Open Rs one n ps x
  | .objectBetweenKV => ∃ ps' m, ∃ v : Val, ∃ x, ps = .objectMiddle :: ps' ∧ Spaces m ∧ v.Meets Rs ∧ (v.IsNum → Follow x) ∧
      z = m ++ (v.text ++ x) ∧ Open Rs one n ps x
  | pos => ∃ ps', ps = pos :: ps' ∧ Open Rs one n ps z

/-- Callbacks that handle a truncated value like the parser does: if one answers `None` the parser is still in front of
the value, if it answers `ValueIsConsumed` the value was there and is consumed (a number may be cut in two, see
C42). `K` is a condition on the client's state that they keep. -/
structure Careful (cb : Callbacks β) (ascii : Bool) (F : Nat) (y : Bytes) (K : β → Prop) : Prop where
  find : ∀ p c b, K b → K (cb.find p c b).1
  findEnd : ∀ p c b, K b → K (cb.findEnd p c b).1
  finish : ∀ p c b b' act, cb.findEnd p c b = (b', some act) → K b' → K (act b').1
  start : ∀ p c b b' act s v ws x, K b' → cb.find p c b = (b', some act) → CInv ascii F s → Starts p v → v.Meets (cutRules ascii) →
    (v.IsNum → Follow x) → Spaces ws → s.rest ++ y = ws ++ (v.text ++ x) → (p ≠ .none → ws = [] ∧ s.rest ≠ []) →
    match act s b' with
    | ((s', b''), .op .none) => K b'' ∧ CInv ascii F s' ∧ ∃ ws', Spaces ws' ∧ s'.rest ++ y = ws' ++ (v.text ++ x) ∧
        (p ≠ .none → ws' = [] ∧ s'.rest ≠ [])
    | ((s', b''), .op .valueIsConsumed) => K b'' ∧ CInv ascii F s' ∧ (s'.rest ++ y = x ∨ v.IsNum ∧ Sticks s'.rest)
    | _ => True

section
variable {Rs : Rules} {one : Bool} {n : Nat} {R : Room} {K : β → Prop}

theorem Open.at {ps : List Pos} {z : Bytes} (h : Open Rs one n ps z) : ∃ pos ps', ps = pos :: ps' ∧
    ¬ (pos = .arrayBegin ∨ pos = .objectBegin) ∧ At Rs one n pos ps z := by
  cases h with
  | top dl ps h1 h2 => exact ⟨_, _, rfl, by decide, _, rfl, .top dl ps h1 h2⟩
  | arr a more ps x h1 h2 h3 => exact ⟨_, _, rfl, by decide, _, rfl, .arr a more ps x h1 h2 h3⟩
  | obj a more ps x h1 h2 h3 => exact ⟨_, _, rfl, by decide, _, rfl, .obj a more ps x h1 h2 h3⟩

theorem follow_sep {a t : Bytes} {c : Byte} (ha : Spaces a) (hc : c = 44 ∨ c = 125 ∨ c = 93) : Follow (a ++ c :: t) := by
  intro d hd
  unfold NumByte Digit
  cases a with
  | nil =>
    simp only [List.nil_append, List.head?_cons, Option.some.injEq] at hd
    subst hd
    rcases hc with rfl | rfl | rfl <;> decide
  | cons x a =>
    simp only [List.cons_append, List.head?_cons, Option.some.injEq] at hd
    subst hd
    rcases ha x (by simp) with rfl | rfl | rfl | rfl <;> decide

theorem Open.follow {pos : Pos} {ps : List Pos} {z : Bytes} (h : Open Rs one n (pos :: ps) z) (hp : pos ≠ .top) : Follow z := by
  cases h with
  | top dl ps h1 h2 => exact absurd rfl hp
  | arr a more ps x h1 h2 h3 =>
    cases more with
    | nil => exact follow_sep h1 (.inr (.inr rfl))
    | cons b v a' more => simp only [Items.textMore, List.cons_append]; exact follow_sep h1 (.inl rfl)
  | obj a more ps x h1 h2 h3 =>
    cases more with
    | nil => exact follow_sep h1 (.inr (.inl rfl))
    | cons b k m m' v a' more => simp only [Members.textMore, List.cons_append]; exact follow_sep h1 (.inl rfl)

/-- The invariant of the main loop. -/
def J (ascii one : Bool) (F : Nat) (y : Bytes) (R : Room) (K : β → Prop) (pos : Pos) (st : St β) : Prop :=
  CInv ascii F st.rj ∧ K st.baton ∧ ∃ l, Holds st.pool R l ∧
    ((At (cutRules ascii) one y.length pos (l.map (·.1)) (st.rj.rest ++ y) ∧
        (pos = .arrayBegin ∨ pos = .objectBegin → st.rj.rest ≠ [])) ∨
      ((pos = .arrayMiddle ∨ pos = .objectMiddle) ∧ Sticks st.rj.rest))

/-- In front of a value whose first byte is `c`. -/
def ValueAt (ascii one : Bool) (F : Nat) (y : Bytes) (R : Room) (K : β → Prop) (pos : Pos) (c : Byte) (st : St β) : Prop :=
  CInv ascii F st.rj ∧ K st.baton ∧ ∃ l ps, ∃ v : Val, ∃ x r, Holds st.pool R l ∧ l.map (·.1) = pos :: ps ∧
    Open (cutRules ascii) one y.length (pos :: ps) x ∧ v.Meets (cutRules ascii) ∧ (v.IsNum → pos ≠ .top) ∧
    v.text = c :: r ∧ st.rj.rest ++ y = v.text ++ x ∧ st.rj.rest ≠ []

theorem Holds.push_ok {p p' : Pool} {l : List (Pos × Bytes)} {q : Pos} {name : Bytes} {r} (h : Holds p R l)
    (hp : p.pushAssoc posLayout [q.byte] name = (p', .ok r)) : Holds p' R ((q, name) :: l) := by
  by_cases hf : R.Fits (names l) name
  · obtain ⟨p2, r2, e, h2⟩ := h.push q name hf
    rw [e] at hp
    simp only [Prod.mk.injEq] at hp
    rw [← hp.1]; exact h2
  · obtain ⟨p2, er, e, _⟩ := h.push_full q name hf
    rw [e] at hp
    simp at hp

/-- Behind a value: the position on top of the stack. -/
theorem after_value {st : St β} {l : List (Pos × Bytes)} {msg : String} {p : Pos} (hc : CInv ascii F st.rj) (hK : K st.baton)
    (hl : Holds st.pool R l) (ho : Open (cutRules ascii) one y.length (l.map (·.1)) (st.rj.rest ++ y))
    (ht : topPos st msg = .ok p) : J ascii one F y R K p st := by
  obtain ⟨pos, ps', e, hnb, hat⟩ := ho.at
  cases l with
  | nil => simp at e
  | cons d l =>
    rw [hl.topPos] at ht
    simp only [SRes.ok.injEq] at ht
    subst ht
    simp only [List.map_cons, List.cons.injEq] at e
    rw [← e.1] at hat hnb
    exact ⟨hc, hK, _, hl, .inl ⟨hat, fun h => absurd h hnb⟩⟩

/-- What `callAction` gives. -/
theorem callAction_cut {cb : Callbacks β} (hcb : Careful cb ascii F y K) {p : Pseudo} {st : St β} {v : Val} {ws x : Bytes}
    (hc : CInv ascii F st.rj) (hK : K st.baton) (hp : Starts p v) (hv : v.Meets (cutRules ascii)) (hfol : v.IsNum → Follow x)
    (hws : Spaces ws) (hr : st.rj.rest ++ y = ws ++ (v.text ++ x)) (hne : p ≠ .none → ws = [] ∧ st.rj.rest ≠ []) :
    match callAction cb p st with
    | (st', .go) => st'.pool = st.pool ∧ K st'.baton ∧ CInv ascii F st'.rj ∧ ∃ ws', Spaces ws' ∧
        st'.rj.rest ++ y = ws' ++ (v.text ++ x) ∧ (p ≠ .none → ws' = [] ∧ st'.rj.rest ≠ [])
    | (st', .consumed) => st'.pool = st.pool ∧ K st'.baton ∧ CInv ascii F st'.rj ∧ (st'.rj.rest ++ y = x ∨ v.IsNum ∧ Sticks st'.rj.rest)
    | _ => True := by
  unfold callAction
  have hf := hcb.find p (.of st.pool) st.baton hK
  rcases hfd : cb.find p (.of st.pool) st.baton with ⟨b', _ | act⟩
  · rw [hfd] at hf
    exact ⟨rfl, hf, hc, ws, hws, hr, hne⟩
  · rw [hfd] at hf
    have := hcb.start p _ _ b' act st.rj v ws x hf hfd hc hp hv hfol hws hr hne
    revert this
    simp only
    rcases act st.rj b' with ⟨⟨s', b''⟩, (_ | _ | m) | _ | _⟩
    · simp only; intro ⟨h1, h2, h3⟩; exact ⟨trivial, h1, h2, h3⟩
    · simp only; intro ⟨h1, h2, h3⟩; exact ⟨trivial, h1, h2, h3⟩
    · simp
    · simp
    · simp

theorem runEnd_cut {cb : Callbacks β} (hcb : Careful cb ascii F y K) {p : Pseudo} {c : Ctx} {st : St β} {b' : β}
    {act : Option (EndAction β)} (hK : K st.baton) (hf : cb.findEnd p c st.baton = (b', act)) {rj : RJ} {pool : Pool} {st' : St β}
    (he : runEnd ⟨rj, b', pool⟩ act = (st', none)) : st'.rj = rj ∧ st'.pool = pool ∧ K st'.baton := by
  have h1 := hcb.findEnd p c st.baton hK
  rw [hf] at h1
  cases act with
  | none =>
    simp only [runEnd, Prod.mk.injEq, and_true] at he
    subst he
    exact ⟨rfl, rfl, h1⟩
  | some act =>
    have h2 := hcb.finish p c st.baton b' act hf h1
    simp only [runEnd] at he
    rcases hact : act b' with ⟨b2, _ | m⟩
    · rw [hact] at he h2
      simp only [Prod.mk.injEq, and_true] at he
      subst he
      exact ⟨rfl, rfl, h2⟩
    · rw [hact] at he
      simp at he

theorem cut_first {v : Val} (h : v.Meets (cutRules ascii)) : ∃ c r, v.text = c :: r ∧ ¬ Space c ∧ c ≠ 12 ∧ c ≠ 93 := by
  cases v with
  | arr w items => exact ⟨91, _, rfl, by unfold Space; decide⟩
  | obj w members => exact ⟨123, _, rfl, by unfold Space; decide⟩
  | atom tok =>
    obtain ⟨c, r, e, h1, h2, h3, _⟩ := atom_first (show IsAtom (fun _ => True) (fun body => ascii = true ∨ 92 ∉ body) tok from h)
    exact ⟨c, r, e, h1, h2, h3⟩

/-! ## Values -/

/-- What is to be shown of a turn. -/
def CutGood (ascii one : Bool) (F : Nat) (y : Bytes) (R : Room) (K : β → Prop) : St β × Step → Prop
  | (st, .next p) => J ascii one F y R K p st
  | (_, .done r) => r ≠ .ok ()

theorem cast_ne {α : Type} (r : SRes Empty) (a : α) : (r.cast : SRes α) ≠ .ok a := by
  cases r with
  | ok a => cases a
  | err e => simp [SRes.cast]
  | panic => simp [SRes.cast]
  | diverge => simp [SRes.cast]

/-- Behind an atom. -/
theorem atom_done {pos : Pos} {ps : List Pos} {l : List (Pos × Bytes)} {v : Val} {x : Bytes} {st' : St β} (hl : Holds st'.pool R l)
    (hp : l.map (·.1) = pos :: ps) (ho : Open (cutRules ascii) one y.length (pos :: ps) x) (hn : v.IsNum → pos ≠ .top)
    (hc : CInv ascii F st'.rj) (hK : K st'.baton) (hx : st'.rj.rest ++ y = x ∨ v.IsNum ∧ Sticks st'.rj.rest) :
    J ascii one F y R K pos st' := by
  obtain ⟨pos', ps', e, hnb, hat⟩ := ho.at
  simp only [List.cons.injEq] at e
  rw [← e.1] at hat hnb
  refine ⟨hc, hK, l, hl, ?_⟩
  rcases hx with hx | ⟨h1, h2⟩
  · left; rw [hp, hx]; exact ⟨hat, fun h => absurd h hnb⟩
  · right
    refine ⟨?_, h2⟩
    cases ho with
    | top dl => exact absurd rfl (hn h1)
    | arr => exact .inl rfl
    | obj => exact .inr rfl

theorem onValue_cut {cb : Callbacks β} (hcb : Careful cb ascii F y K) {opt : Options} (hsse : opt.sseTokens = []) {pos : Pos}
    {c : Byte} {st : St β} (h : ValueAt ascii one F y R K pos c st) : CutGood ascii one F y R K (onValue F cb opt c pos st) := by
  obtain ⟨hc, hK, l, ps, v, x, r, hl, hp, ho, hv, hn, hvt, hr, hne⟩ := h
  have hfol : v.IsNum → Follow x := fun h => ho.follow (hn h)
  unfold onValue
  cases v with
  | arr w items =>
    simp only [Val.text, List.cons.injEq] at hvt
    obtain ⟨rfl, rfl⟩ := hvt
    rw [if_pos rfl]
    refine ⟨hc, hK, l, hl, .inl ⟨?_, fun _ => hne⟩⟩
    exact ⟨w, items, x, by rw [hr]; simp [Val.text], hv.1, hv.2, by rw [hp]; exact ho⟩
  | obj w members =>
    simp only [Val.text, List.cons.injEq] at hvt
    obtain ⟨rfl, rfl⟩ := hvt
    rw [if_neg (by decide), if_pos rfl]
    refine ⟨hc, hK, l, hl, .inl ⟨?_, fun _ => hne⟩⟩
    exact ⟨w, members, x, by rw [hr]; simp [Val.text], hv.1, hv.2, by rw [hp]; exact ho⟩
  | atom tok =>
    have ha : IsAtom (fun _ => True) (fun body => ascii = true ∨ 92 ∉ body) tok := hv
    obtain ⟨c', r', e', _, _, _, h91, h123⟩ := atom_first ha
    have hvt' : tok = c :: r := hvt
    rw [hvt'] at e'
    simp only [List.cons.injEq] at e'
    rw [← e'.1] at h91 h123
    rw [if_neg h91, if_neg h123]
    have hca := callAction_cut hcb (p := .atom) (v := .atom tok) (ws := []) hc hK trivial hv hfol (by intro c hc; simp at hc)
      (by simpa using hr) (fun _ => ⟨rfl, hne⟩)
    rcases hcall : callAction cb .atom st with ⟨st', _ | _ | r2⟩
    · rw [hcall] at hca
      obtain ⟨h1, h2, h3, ws', _, h5, h6⟩ := hca
      obtain ⟨rfl, hne'⟩ := h6 (by decide)
      rw [List.nil_append] at h5
      simp only
      rcases hsk : skipBasic F c st'.rj with ⟨rj, u | e | _ | _⟩
      · obtain ⟨a1, a2⟩ := skipBasic_cut h3 ha hvt' hfol h5 hne' hsk
        exact atom_done (st' := { st' with rj := rj }) (v := .atom tok) (by rw [← h1] at hl; exact hl) hp ho hn a1 h2 a2
      · simp only [hsse, skipSse]
        by_cases hpp : pos = Pos.top ∨ (pos = Pos.arrayBegin ∨ pos = Pos.arrayMiddle) ∧ st'.pool.len = 2
        · rw [if_pos hpp]; simp [CutGood]
        · rw [if_neg hpp]; simp [CutGood]
      · simp [CutGood]
      · simp [CutGood]
    · rw [hcall] at hca
      obtain ⟨h1, h2, h3, h4⟩ := hca
      exact atom_done (v := .atom tok) (by rw [← h1] at hl; exact hl) hp ho hn h3 h2 h4
    · exact cast_ne _ _

/-! ## Objects -/

/-- What is to be shown of `handle_object`. -/
def GoodP (ascii one : Bool) (F : Nat) (y : Bytes) (R : Room) (K : β → Prop) : St β × SRes Pos → Prop
  | (st, .ok p) => J ascii one F y R K p st
  | _ => True

/-- A state without what the position says. -/
def Held (ascii : Bool) (F : Nat) (R : Room) (K : β → Prop) (l : List (Pos × Bytes)) (st : St β) : Prop :=
  CInv ascii F st.rj ∧ K st.baton ∧ Holds st.pool R l

/-- Behind the closing brace. -/
theorem objectEnd_cut {cb : Callbacks β} (hcb : Careful cb ascii F y K) {l : List (Pos × Bytes)} {st : St β} {rj : RJ} {msg : String}
    (h : Held ascii F R K l st) (hc : CInv ascii F rj) (ho : Open (cutRules ascii) one y.length (l.map (·.1)) (rj.rest ++ y))
    {pool : Pool} (hl : Holds pool R l) {c : Ctx} :
    GoodP ascii one F y R K (match cb.findEnd .object c st.baton with
      | (b, act) =>
        match runEnd { rj := rj, baton := b, pool := pool } act with
        | (st, some e) => (st, .err e)
        | (st, none) => (st, topPos st msg)) := by
  rcases hfd : cb.findEnd .object c st.baton with ⟨b', act⟩
  simp only
  rcases hre : runEnd ⟨rj, b', pool⟩ act with ⟨st', _ | e⟩
  · obtain ⟨h1, h2, h3⟩ := runEnd_cut hcb h.2.1 hfd hre
    simp only
    rcases ht : topPos st' msg with p | e | _ | _
    · exact after_value (by rw [h1]; exact hc) h3 (by rw [h2]; exact hl) (by rw [h1]; exact ho) ht
    · trivial
    · trivial
    · trivial
  · trivial

/-- Behind a key and its colon. -/
theorem key_cut {cb : Callbacks β} (hcb : Careful cb ascii F y K) {l : List (Pos × Bytes)} {st : St β}
    (h : Held ascii F R K l st) {k m a x : Bytes} {v : Val} {more : Members} (hm : Spaces m) (hv : v.Meets (cutRules ascii))
    (ha : Spaces a) (hmore : more.Meets (cutRules ascii)) (ho : Open (cutRules ascii) one y.length (l.map (·.1)) x)
    (hr : st.rj.rest ++ y = m ++ (v.text ++ (a ++ (more.textMore ++ 125 :: x)))) :
    GoodP ascii one F y R K (match st.pool.pushAssoc posLayout [Pos.objectMiddle.byte] k with
      | (p, .ok _) =>
        match callAction cb .none { st with pool := p } with
        | (st, .go) => (st, .ok .objectBetweenKV)
        | (st, .consumed) => (st, .ok .objectMiddle)
        | (st, .leave r) => (st, r.cast)
      | (p, .err e) => ({ st with pool := p }, .err (keyPushError e st.rj.currentIndex))
      | (p, .panic) => ({ st with pool := p }, .panic)) := by
  obtain ⟨hc, hK, hl⟩ := h
  have ho' := Open.obj a more _ x ha hmore ho
  have hfol : v.IsNum → Follow (a ++ (more.textMore ++ 125 :: x)) := fun _ => ho'.follow (by decide)
  rcases hpush : st.pool.pushAssoc posLayout [Pos.objectMiddle.byte] k with ⟨p, r | e | _⟩
  · have hl' := hl.push_ok hpush
    simp only
    have hca := callAction_cut hcb (p := .none) (st := { st with pool := p }) (v := v) (ws := m) hc hK
      (by cases v <;> trivial) hv hfol hm hr (fun h => absurd rfl h)
    rcases hcall : callAction cb .none { st with pool := p } with ⟨st', _ | _ | r2⟩
    · rw [hcall] at hca
      obtain ⟨h1, h2, h3, ws', h4, h5, _⟩ := hca
      simp only at h1
      refine ⟨h3, h2, _, by rw [h1]; exact hl', .inl ⟨?_, by rintro (h | h) <;> cases h⟩⟩
      exact ⟨_, ws', v, _, rfl, h4, hv, hfol, h5, ho'⟩
    · rw [hcall] at hca
      obtain ⟨h1, h2, h3, h4⟩ := hca
      simp only at h1
      exact atom_done (v := v) (by rw [h1]; exact hl') rfl ho' (fun _ => by decide) h3 h2 h4
    · simp only
      rcases hr2 : (r2.cast : SRes Pos) with p | e | _ | _
      · exact absurd hr2 (cast_ne _ _)
      · trivial
      · trivial
      · trivial
  · trivial
  · trivial

theorem prefix_of {r y z : Bytes} (h : r ++ y = z) : r <+: z := ⟨y, h⟩

/-- What jiter's `object_key` returns, given the text of a key. -/
theorem key_text {t y k m b u : Bytes} {n : Nat} (hb : RawBody b) (hm : Spaces m) (e : t ++ y = b ++ 34 :: (m ++ 58 :: u))
    (ho : objectKey Jiter.knownBytes (34 :: t) = (n, .ok k)) : (34 :: t).drop n ++ y = u := by
  have h1 := objectKey_more (t := y) knownBytes_ext ho
  rw [List.cons_append, e] at h1
  have h2 : objectKey Jiter.knownBytes (34 :: (b ++ 34 :: (m ++ 58 :: u))) = _ := Content.key (.raw _ hb) hm u
  rw [h1] at h2
  simp only [Prod.mk.injEq] at h2
  obtain ⟨rfl, _⟩ := h2
  have hle := objectKey_le knownBytes_prefix ho
  rw [← List.drop_append_of_le_length hle, List.cons_append, e]
  rw [show 34 :: (b ++ 34 :: (m ++ 58 :: u)) = (34 :: (b ++ 34 :: (m ++ [58]))) ++ u by simp]
  rw [show b.length + m.length + 3 = (34 :: (b ++ 34 :: (m ++ [58]))).length by simp; omega, List.drop_left]

theorem handleKey_begin_cut {cb : Callbacks β} (hcb : Careful cb ascii F y K) {l : List (Pos × Bytes)} {st : St β}
    (h : Held ascii F R K l st) {w x : Bytes} {members : Members} (hw : Spaces w) (hm : members.Meets (cutRules ascii))
    (ho : Open (cutRules ascii) one y.length (l.map (·.1)) x)
    (hr : st.rj.rest ++ y = 123 :: (w ++ (members.text ++ 125 :: x))) :
    GoodP ascii one F y R K (handleKey F cb true st) := by
  obtain ⟨hc, hK, hl⟩ := h
  unfold handleKey
  rw [if_pos rfl]
  -- what the call sees
  obtain ⟨b, T, e, hb, hT⟩ : ∃ b T, w ++ (members.text ++ 125 :: x) = b ++ T ∧ Spaces b ∧
      (members = .nil ∧ T = 125 :: x ∨ ∃ b' k m m' v a more, members = .cons b' k m m' v a more ∧
        T = 34 :: (k ++ 34 :: (m ++ 58 :: (m' ++ (v.text ++ (a ++ (more.textMore ++ 125 :: x))))))) := by
    cases members with
    | nil => exact ⟨w, 125 :: x, by simp [Members.text], hw, .inl ⟨rfl, rfl⟩⟩
    | cons b' k m m' v a more =>
      exact ⟨w ++ b', _, by simp [Members.text], Spaces.append hw hm.1, .inr ⟨b', k, m, m', v, a, more, rfl, rfl⟩⟩
  rw [e] at hr
  have hcalm : Calm (Jiter.nextObject Jiter.knownBytes) st.rj.rest := by
    have hp := prefix_of hr
    refine Calm.of_prefix (nextObject_calm (a := []) knownBytes_prefix Ws.nil ((ws_iff b).mpr hb) (T := T) ?_) hp
    rcases hT with ⟨_, rfl⟩ | ⟨b', k, m, m', v, a, more, rfl, rfl⟩
    · exact .inl ⟨_, rfl⟩
    · exact .inr ⟨_, _, _, rfl, Content.key (.raw _ hm.2.1.1) hm.2.2.1 _⟩
  rcases hcall : st.rj.nextObjectBytes F with ⟨rj, (_ | key) | e2 | _ | _⟩
  case err | panic | diverge => trivial
  all_goals
    obtain ⟨ws, ws2, T', e1, hws, hws2, ⟨n, hmv⟩, hT'⟩ := RJ.nextObject_text knownBytes_prefix knownBytes_ext hc.sync
      (by have := hc.eight; omega) hc.fuel hcalm hcall
    have hc' : CInv ascii F rj := hc.moved hmv (hc.reach_op .nextObjectBytes (r := .ok ()) (by simp [Op.run, hcall, Res.void]))
    rw [e1, List.append_assoc, List.cons_append, List.append_assoc] at hr
    have hhead : ∃ c U, T' = c :: U ∧ isWs c = false := by
      rcases hT' with ⟨_, rfl⟩ | ⟨_, _, t, rfl, _⟩
      · exact ⟨125, _, rfl, by decide⟩
      · exact ⟨34, t, rfl, by decide⟩
    obtain ⟨_, _, hr2⟩ := spaces_unique hws (by decide) Ws.nil (by decide) (show ws ++ 123 :: _ = [] ++ 123 :: _ from hr)
    simp only
    have hTh : ∃ c U, T = c :: U ∧ Buffer.isAsciiWs c = false := by
      rcases hT with ⟨_, rfl⟩ | ⟨b', k, m, m', v, a, more, _, rfl⟩
      · exact ⟨125, _, rfl, by decide⟩
      · exact ⟨34, _, rfl, by decide⟩
    have hTT : T' ++ y = T := by
      obtain ⟨c, U, rfl, hcw⟩ := hhead
      obtain ⟨c2, U2, rfl, hc2⟩ := hTh
      obtain ⟨_, h1, h2⟩ := spaces_unique (U := U ++ y) hws2 hcw ((ws_iff b).mpr hb) hc2 hr2
      rw [List.cons_append, h1, h2]
  · rcases hT' with ⟨_, rfl⟩ | ⟨_, _, _, _, h2, _⟩
    · rcases hT with ⟨_, rfl⟩ | ⟨b', k, m, m', v, a, more, _, rfl⟩
      · simp only [List.cons_append, List.cons.injEq, true_and] at hTT
        exact objectEnd_cut hcb ⟨hc, hK, hl⟩ hc' (by rw [hTT]; exact ho) hl
      · simp at hTT
    · cases h2
  · rcases hT' with ⟨h2, _⟩ | ⟨k2, n2, t, rfl, h2, h3, h4⟩
    · cases h2
    · rcases hT with ⟨_, rfl⟩ | ⟨b', k, m, m', v, a, more, rfl, rfl⟩
      · simp at hTT
      · simp only [List.cons_append, List.cons.injEq, true_and] at hTT
        obtain ⟨_, ⟨hk, _⟩, hm1, hm2, hv, _, ha, hmore⟩ := hm
        exact key_cut hcb (st := { st with rj := rj }) ⟨hc', hK, hl⟩ hm2 hv ha hmore ho (by
          show rj.rest ++ y = _
          rw [h4]; exact key_text hk hm1 hTT h3)

theorem handleKey_next_cut {cb : Callbacks β} (hcb : Careful cb ascii F y K) {l : List (Pos × Bytes)} {st : St β}
    (h : Held ascii F R K l st) {b x : Bytes} {more : Members} (hb : Spaces b) (hm : more.Meets (cutRules ascii))
    (ho : Open (cutRules ascii) one y.length (l.map (·.1)) x)
    (hr : st.rj.rest ++ y = b ++ (more.textMore ++ 125 :: x)) :
    GoodP ascii one F y R K (handleKey F cb false st) := by
  obtain ⟨hc, hK, hl⟩ := h
  unfold handleKey
  rw [if_neg (by decide)]
  have hcalm : Calm (Jiter.nextKey Jiter.knownBytes) st.rj.rest := by
    have hp := prefix_of hr
    refine Calm.of_prefix ?_ hp
    cases more with
    | nil => exact nextKey_calm_end _ ((ws_iff b).mpr hb)
    | cons b' k m m' v a more =>
      simp only [Members.textMore, List.cons_append, List.append_assoc]
      exact nextKey_calm_comma knownBytes_prefix ((ws_iff b).mpr hb) ((ws_iff b').mpr hm.1) (Content.key (.raw _ hm.2.1.1) hm.2.2.1 _)
  rcases hcall : st.rj.nextKeyBytes F with ⟨rj, key | e2 | _ | _⟩
  case err | panic | diverge => trivial
  have hok := RJ.nextKey_text knownBytes_prefix knownBytes_ext hc.sync (by have := hc.eight; omega) hc.fuel hcalm hcall
  have hc' : CInv ascii F rj := by
    obtain ⟨n, hmv⟩ : ∃ n, st.rj.Moved rj n := by
      rcases hok with ⟨_, _, _, _, _, _, h⟩ | ⟨_, _, _, _, _, _, _, _, _, _, _, h⟩ <;> exact h
    exact hc.moved hmv (hc.reach_op .nextKeyBytes (r := .ok ()) (by simp [Op.run, hcall, Res.void]))
  rcases hok with ⟨ws, t, e1, hws, rfl, h2, _⟩ | ⟨ws, ws2, t, k2, n2, e1, hws, hws2, rfl, h3, h4, _⟩
  · simp only
    rw [e1, List.append_assoc, List.cons_append] at hr
    cases more with
    | nil =>
      obtain ⟨_, _, hr2⟩ := spaces_unique hws (by decide) ((ws_iff b).mpr hb) (by decide) hr
      exact objectEnd_cut hcb ⟨hc, hK, hl⟩ hc' (by rw [h2, hr2]; exact ho) hl
    | cons b' k m m' v a more =>
      simp only [Members.textMore, List.cons_append] at hr
      have := (spaces_unique hws (by decide) ((ws_iff b).mpr hb) (by decide) hr).2.1
      exact absurd this (by decide)
  · simp only
    rw [e1, List.append_assoc, List.cons_append, List.append_assoc, List.cons_append] at hr
    cases more with
    | nil =>
      have := (spaces_unique hws (by decide) ((ws_iff b).mpr hb) (by decide) (show _ = b ++ 125 :: x from hr)).2.1
      exact absurd this (by decide)
    | cons b' k m m' v a more =>
      simp only [Members.textMore, List.cons_append, List.append_assoc] at hr
      obtain ⟨hb', ⟨hk, _⟩, hm1, hm2, hv, _, ha, hmore⟩ := hm
      obtain ⟨_, _, hr2⟩ := spaces_unique hws (by decide) ((ws_iff b).mpr hb) (by decide) hr
      obtain ⟨_, _, hr3⟩ := spaces_unique hws2 (by decide) ((ws_iff b').mpr hb') (by decide) hr2
      exact key_cut hcb (st := { st with rj := rj }) ⟨hc', hK, hl⟩ hm2 hv ha hmore ho (by
        show rj.rest ++ y = _
        rw [h4]; exact key_text hk hm1 hr3 h3)

/-! ## Arrays -/

/-- What is to be shown of `handle_array`. -/
def GoodI (ascii one : Bool) (F : Nat) (y : Bytes) (R : Room) (K : β → Prop) : St β × SRes (Option Byte × Pos) → Prop
  | (st, .ok (some c, p)) => p = .arrayMiddle ∧ ValueAt ascii one F y R K .arrayMiddle c st
  | (st, .ok (none, p)) => J ascii one F y R K p st
  | _ => True

/-- Behind the closing bracket. -/
theorem arrayEnd_cut {cb : Callbacks β} (hcb : Careful cb ascii F y K) {e0 : Pos × Bytes} {l : List (Pos × Bytes)} {st : St β}
    {msg1 msg2 : String} (h : Held ascii F R K (e0 :: l) st) (ho : Open (cutRules ascii) one y.length (l.map (·.1)) (st.rj.rest ++ y)) :
    GoodI ascii one F y R K (match st.pool.popAssoc posLayout with
    | (p, .ok (some _)) =>
      match cb.findEnd .array (.of p) st.baton with
      | (b, act) =>
        match runEnd { rj := st.rj, baton := b, pool := p } act with
        | (st, some e) => (st, .err e)
        | (st, none) =>
          match topPos st msg1 with
          | .ok pos => (st, .ok (none, pos))
          | .err e => (st, .err e)
          | .panic => (st, .panic)
          | .diverge => (st, .diverge)
    | (p, .ok none) => ({ st with pool := p }, .err (.internal st.rj.currentIndex msg2))
    | (p, _) => ({ st with pool := p }, .panic)) := by
  obtain ⟨hc, hK, hl⟩ := h
  obtain ⟨p, r, e, hl'⟩ := hl.pop
  rw [e]
  rcases hfd : cb.findEnd .array (.of p) st.baton with ⟨b', act⟩
  simp only [hfd]
  rcases hre : runEnd ⟨st.rj, b', p⟩ act with ⟨st', _ | e⟩
  · obtain ⟨h1, h2, h3⟩ := runEnd_cut hcb hK hfd hre
    simp only
    rcases ht : topPos st' msg1 with q | e | _ | _
    · exact after_value (by rw [h1]; exact hc) h3 (by rw [h2]; exact hl') (by rw [h1]; exact ho) ht
    · trivial
    · trivial
    · trivial
  · trivial

/-- In front of an item. -/
theorem item_cut {l : List (Pos × Bytes)} {ps : List Pos} {st : St β} (h : Held ascii F R K l st) (hp : l.map (·.1) = .arrayMiddle :: ps)
    {c : Byte} {t a x : Bytes} {v : Val} {more : Items} (hv : v.Meets (cutRules ascii)) (ha : Spaces a) (hm : more.Meets (cutRules ascii))
    (ho : Open (cutRules ascii) one y.length ps x) (ht : st.rj.rest = c :: t)
    (hr : c :: (t ++ y) = v.text ++ (a ++ (more.textMore ++ 93 :: x))) : ValueAt ascii one F y R K .arrayMiddle c st := by
  obtain ⟨c', r, e, _⟩ := cut_first hv
  have hcc : c = c' := by rw [e] at hr; simp at hr; exact hr.1
  subst hcc
  exact ⟨h.1, h.2.1, l, ps, v, _, r, h.2.2, hp, .arr a more ps x ha hm ho, hv, fun _ => by decide, e, by rw [ht]; simpa using hr, by rw [ht]; simp⟩

theorem handleItem_begin_cut {cb : Callbacks β} (hcb : Careful cb ascii F y K) {e0 : Bytes} {l : List (Pos × Bytes)} {st : St β}
    (h : Held ascii F R K ((.arrayMiddle, e0) :: l) st) {w x : Bytes} {items : Items} (hw : Spaces w) (hm : items.Meets (cutRules ascii))
    (ho : Open (cutRules ascii) one y.length (l.map (·.1)) x) (hr : st.rj.rest ++ y = 91 :: (w ++ (items.text ++ 93 :: x))) :
    GoodI ascii one F y R K (handleItem F cb true st) := by
  obtain ⟨hc, hK, hl⟩ := h
  unfold handleItem
  rw [if_pos rfl]
  rcases hcall : st.rj.knownArray F with ⟨rj, res | e2 | _ | _⟩
  case err | panic | diverge => trivial
  obtain ⟨q, ws, c, t, e1, hws, hcw, ⟨n, hmv⟩, hcase⟩ := RJ.knownArray_text hc.sync (by have := hc.eight; omega) hc.fuel (by
    intro c hcc
    cases hre : st.rj.rest with
    | nil => rw [hre] at hcc; simp at hcc
    | cons a r =>
      rw [hre] at hcc hr
      simp only [List.head?_cons, Option.some.injEq] at hcc
      simp only [List.cons_append, List.cons.injEq] at hr
      rw [← hcc, hr.1]; decide) hcall
  have hc' : CInv ascii F rj := hc.moved hmv (hc.reach_op .knownArray (r := .ok ()) (by simp [Op.run, hcall, Res.void]))
  rw [e1, List.cons_append, List.append_assoc, List.cons_append] at hr
  simp only [List.cons.injEq] at hr
  obtain ⟨_, hr⟩ := hr
  cases items with
  | nil =>
    obtain ⟨_, rfl, h2⟩ := spaces_unique hws hcw ((ws_iff w).mpr hw) (by decide) (show _ = w ++ 93 :: x from hr)
    rcases hcase with ⟨_, rfl, h3⟩ | ⟨h3, _⟩
    · exact arrayEnd_cut hcb (st := { st with rj := rj }) ⟨hc', hK, hl⟩ (by show Open _ _ _ _ (rj.rest ++ y); rw [h3, h2]; exact ho)
    · exact absurd rfl h3
  | cons b v a more =>
    obtain ⟨hb, hv, ha, hmore⟩ := hm
    obtain ⟨c', r, e, hsp, hff, h93⟩ := cut_first hv
    have hr' : ws ++ c :: (t ++ y) = (w ++ b) ++ c' :: (r ++ (a ++ (more.textMore ++ 93 :: x))) := by
      rw [hr]; simp [Items.text, e]
    obtain ⟨_, rfl, h2⟩ := spaces_unique hws hcw ((ws_iff _).mpr (Spaces.append hw hb)) (isAsciiWs_false hsp hff) hr'
    rcases hcase with ⟨rfl, _⟩ | ⟨_, rfl, h3⟩
    · exact absurd rfl h93
    · exact ⟨rfl, item_cut (st := { st with rj := rj }) ⟨hc', hK, hl⟩ rfl hv ha hmore ho h3 (by rw [h2, e]; simp)⟩

theorem handleItem_next_cut {cb : Callbacks β} (hcb : Careful cb ascii F y K) {e0 : Bytes} {l : List (Pos × Bytes)} {st : St β}
    (h : Held ascii F R K ((.arrayMiddle, e0) :: l) st) {b x : Bytes} {more : Items} (hb : Spaces b) (hm : more.Meets (cutRules ascii))
    (ho : Open (cutRules ascii) one y.length (l.map (·.1)) x) (hr : st.rj.rest ++ y = b ++ (more.textMore ++ 93 :: x)) :
    GoodI ascii one F y R K (handleItem F cb false st) := by
  obtain ⟨hc, hK, hl⟩ := h
  unfold handleItem
  rw [if_neg (by decide)]
  have hcalm : Calm Jiter.arrayStep st.rj.rest := by
    have hp := prefix_of hr
    refine Calm.of_prefix ?_ hp
    cases more with
    | nil => exact arrayStep_calm_end ((ws_iff b).mpr hb)
    | cons b' v a more =>
      obtain ⟨c', r, e, hsp, hff, h93⟩ := cut_first hm.2.1
      simp only [Items.textMore, List.cons_append, List.append_assoc, e]
      exact arrayStep_calm_comma ((ws_iff b).mpr hb) ((ws_iff b').mpr hm.1) (isAsciiWs_false hsp hff) h93
  rcases hcall : st.rj.arrayStep F with ⟨rj, res | e2 | _ | _⟩
  case err | panic | diverge => trivial
  have hok := RJ.arrayStep_text hc.sync (by have := hc.eight; omega) hc.fuel hcalm hcall
  have hc' : CInv ascii F rj := by
    obtain ⟨n, hmv⟩ : ∃ n, st.rj.Moved rj n := by
      rcases hok with ⟨_, _, _, _, _, _, h⟩ | ⟨_, _, _, _, _, _, _, _, _, _, _, h⟩ <;> exact h
    exact hc.moved hmv (hc.reach_op .arrayStep (r := .ok ()) (by simp [Op.run, hcall, Res.void]))
  rcases hok with ⟨ws, t, e1, hws, rfl, h3, _⟩ | ⟨ws, ws2, c, t, e1, hws, hws2, hcw, hc93, rfl, h3, _⟩
  · rw [e1, List.append_assoc, List.cons_append] at hr
    cases more with
    | nil =>
      obtain ⟨_, _, h2⟩ := spaces_unique hws (by decide) ((ws_iff b).mpr hb) (by decide) (show _ = b ++ 93 :: x from hr)
      exact arrayEnd_cut hcb (st := { st with rj := rj }) ⟨hc', hK, hl⟩ (by show Open _ _ _ _ (rj.rest ++ y); rw [h3, h2]; exact ho)
    | cons b' v a more =>
      simp only [Items.textMore, List.cons_append] at hr
      have := (spaces_unique hws (by decide) ((ws_iff b).mpr hb) (by decide) hr).2.1
      exact absurd this (by decide)
  · rw [e1, List.append_assoc, List.cons_append, List.append_assoc, List.cons_append] at hr
    cases more with
    | nil =>
      have := (spaces_unique hws (by decide) ((ws_iff b).mpr hb) (by decide) (show _ = b ++ 93 :: x from hr)).2.1
      exact absurd this (by decide)
    | cons b' v a more =>
      obtain ⟨hb', hv, ha, hmore⟩ := hm
      obtain ⟨c', r, e, hsp, hff, h93⟩ := cut_first hv
      simp only [Items.textMore, List.cons_append, List.append_assoc] at hr
      obtain ⟨_, _, h2⟩ := spaces_unique hws (by decide) ((ws_iff b).mpr hb) (by decide) hr
      rw [e, List.cons_append] at h2
      obtain ⟨_, rfl, h4⟩ := spaces_unique hws2 hcw ((ws_iff b').mpr hb') (isAsciiWs_false hsp hff) h2
      exact ⟨rfl, item_cut (st := { st with rj := rj }) ⟨hc', hK, hl⟩ rfl hv ha hmore ho h3 (by rw [h4, e]; simp)⟩

/-! ## The main loop -/

theorem sticks_head {r : Bytes} (h : Sticks r) : r = [] ∨ ∃ c t, r = c :: t ∧ NumByte c := by
  cases r with
  | nil => exact .inl rfl
  | cons c t => exact .inr ⟨c, t, rfl, h c rfl⟩

theorem numByte_facts {c : Byte} (h : NumByte c) : Buffer.isAsciiWs c = false ∧ isWs c = false ∧ c ≠ 44 ∧ c ≠ 93 ∧ c ≠ 125 := by
  rcases h with ⟨h1, h2⟩ | rfl | rfl | rfl | rfl | rfl
  · have ne : ∀ k : Byte, (k.toNat < 48 ∨ 57 < k.toNat) → c ≠ k := by
      intro k hk hck; subst hck; omega
    refine ⟨?_, ?_, ne _ (by decide), ne _ (by decide), ne _ (by decide)⟩
    · simp only [Buffer.isAsciiWs, Bool.or_eq_false_iff, beq_eq_false_iff_ne]
      exact ⟨⟨⟨⟨ne _ (by decide), ne _ (by decide)⟩, ne _ (by decide)⟩, ne _ (by decide)⟩, ne _ (by decide)⟩
    · simp only [isWs, Bool.or_eq_false_iff, beq_eq_false_iff_ne]
      exact ⟨⟨⟨ne _ (by decide), ne _ (by decide)⟩, ne _ (by decide)⟩, ne _ (by decide)⟩
  all_goals decide

theorem num_ne {c k : Byte} (h : NumByte c) (hk : k = 44 ∨ k = 93 ∨ k = 125) : c ≠ k := by
  have := numByte_facts h
  rcases hk with rfl | rfl | rfl
  · exact this.2.2.1
  · exact this.2.2.2.1
  · exact this.2.2.2.2

/-- The other half of a number cannot be at the end of an item. -/
theorem sticks_sep {r ws t : Bytes} {k : Byte} (h : Sticks r) (hk : k = 44 ∨ k = 93 ∨ k = 125) (e : r = ws ++ k :: t) (hws : AWs ws) :
    False := by
  rcases sticks_head h with rfl | ⟨c, t', rfl, hc⟩
  · simp at e
  · cases ws with
    | nil =>
      simp only [List.nil_append, List.cons.injEq] at e
      exact num_ne hc hk e.1
    | cons a ws =>
      simp only [List.cons_append, List.cons.injEq] at e
      have := hws a (by simp)
      rw [← e.1, (numByte_facts hc).1] at this
      exact absurd this (by decide)

theorem arrayStep_sticks {s s' : RJ} {v : Option Byte} (hc : CInv ascii F s) (h : Sticks s.rest) : s.arrayStep F ≠ (s', .ok v) := by
  intro hcall
  have hcalm : Calm Jiter.arrayStep s.rest := by
    rcases sticks_head h with e | ⟨c, t, e, hcn⟩
    · rw [e]
      rintro d ⟨z, hz⟩ n err he
      obtain ⟨rfl, _⟩ := List.append_eq_nil_iff.mp hz
      right
      intro m w hx
      rw [List.drop_nil, Jiter.arrayStep_ws Ws.nil] at hx
      simp at hx
    · rw [e]
      rintro d ⟨z, hz⟩ n err he
      cases d with
      | nil =>
        right
        intro m w hx
        rw [List.drop_nil, Jiter.arrayStep_ws Ws.nil] at hx
        simp at hx
      | cons c' d =>
        left
        simp only [List.cons_append, List.cons.injEq] at hz
        obtain ⟨rfl, _⟩ := hz
        obtain ⟨_, h1, h2, h3, _⟩ := numByte_facts hcn
        have := arrayStep_tok (ws := []) Ws.nil h1 (t := d)
        simp only [List.nil_append, h2, h3, if_false, List.length_nil] at this
        rw [this] at he
        simp only [jerr, Prod.mk.injEq] at he
        exact he.1.symm
  rcases RJ.arrayStep_text hc.sync (by have := hc.eight; omega) hc.fuel hcalm hcall with
    ⟨ws, t, e1, hws, _⟩ | ⟨ws, ws2, c, t, e1, hws, _⟩
  · exact sticks_sep h (by simp) e1 hws
  · exact sticks_sep h (by simp) e1 hws

theorem nextKey_sticks {s s' : RJ} {v : Option Bytes} (hc : CInv ascii F s) (h : Sticks s.rest) : s.nextKeyBytes F ≠ (s', .ok v) := by
  intro hcall
  have hcalm : Calm (Jiter.nextKey Jiter.knownBytes) s.rest := by
    rcases sticks_head h with e | ⟨c, t, e, hcn⟩
    · rw [e]
      rintro d ⟨z, hz⟩ n err he
      obtain ⟨rfl, _⟩ := List.append_eq_nil_iff.mp hz
      right
      rw [List.drop_nil]
      exact nextKey_nil _
    · rw [e]
      rintro d ⟨z, hz⟩ n err he
      cases d with
      | nil =>
        right
        rw [List.drop_nil]
        exact nextKey_nil _
      | cons c' d =>
        left
        simp only [List.cons_append, List.cons.injEq] at hz
        obtain ⟨rfl, _⟩ := hz
        obtain ⟨_, h1, h2, _, h3⟩ := numByte_facts hcn
        have := nextKey_tok (known := Jiter.knownBytes) (ws := []) Ws.nil h1 (t := d)
        simp only [List.nil_append, h2, h3, if_false, List.length_nil] at this
        rw [this] at he
        simp only [jerr, Prod.mk.injEq] at he
        exact he.1.symm
  rcases RJ.nextKey_text knownBytes_prefix knownBytes_ext hc.sync (by have := hc.eight; omega) hc.fuel hcalm hcall with
    ⟨ws, t, e1, hws, _⟩ | ⟨ws, ws2, t, k, m, e1, hws, _⟩
  · exact sticks_sep h (by simp) e1 hws
  · exact sticks_sep h (by simp) e1 hws

theorem handleObject_cut {cb : Callbacks β} (hcb : Careful cb ascii F y K) {pos : Pos} (hpos : pos = .objectBegin ∨ pos = .objectMiddle)
    {st : St β} (h : J ascii one F y R K pos st) : GoodP ascii one F y R K (handleObject F cb pos st) := by
  obtain ⟨hc, hK, l, hl, hat⟩ := h
  unfold handleObject
  rcases hpos with rfl | rfl
  · rw [if_pos rfl]
    rcases hat with ⟨⟨w, members, x, hr, hw, hm, ho⟩, hne⟩ | ⟨h, _⟩
    rotate_left
    · rcases h with h | h <;> cases h
    have hca := callAction_cut hcb (p := .object) (st := st) (v := .obj w members) (ws := []) (x := x) hc hK trivial ⟨hw, hm⟩
      (fun h => h.elim) (by intro c hc; simp at hc) (by rw [hr]; simp [Val.text]) (fun _ => ⟨rfl, hne (.inr rfl)⟩)
    rcases hcall : callAction cb .object st with ⟨st', _ | _ | r2⟩
    · rw [hcall] at hca
      obtain ⟨h1, h2, h3, ws', _, h5, h6⟩ := hca
      obtain ⟨rfl, _⟩ := h6 (by decide)
      exact handleKey_begin_cut hcb ⟨h3, h2, by rw [h1]; exact hl⟩ hw hm ho (by rw [h5]; simp [Val.text])
    · rw [hcall] at hca
      obtain ⟨h1, h2, h3, h4⟩ := hca
      simp only
      rcases ht : topPos st' "Context stack is empty when handling ValueIsConsumed" with q | e | _ | _
      · rcases h4 with h4 | ⟨h4, _⟩
        · exact after_value h3 h2 (by rw [h1]; exact hl) (by rw [h4]; exact ho) ht
        · exact h4.elim
      · trivial
      · trivial
      · trivial
    · simp only
      rcases hr2 : (r2.cast : SRes Pos) with p | e | _ | _
      · exact absurd hr2 (cast_ne _ _)
      · trivial
      · trivial
      · trivial
  · rw [if_neg (by decide)]
    rcases hfd : cb.findEnd .none (.of st.pool) st.baton with ⟨b', act⟩
    simp only
    rcases hpop : st.pool.popAssoc posLayout with ⟨p, r⟩
    have main : ∀ st', runEnd { st with baton := b', pool := p } act = (st', none) → GoodP ascii one F y R K (handleKey F cb false st') := by
      intro st' hre
      obtain ⟨h1, h2, h3⟩ := runEnd_cut hcb hK hfd hre
      rcases hat with ⟨⟨ps, hps, ho⟩, _⟩ | ⟨_, hst⟩
      · cases l with
        | nil => simp at hps
        | cons e l =>
          rw [hps] at ho
          obtain ⟨p', r', e', hl'⟩ := hl.pop
          rw [hpop] at e'
          simp only [Prod.mk.injEq] at e'
          obtain ⟨rfl, _⟩ := e'
          simp only [List.map_cons, List.cons.injEq] at hps
          generalize hz : st.rj.rest ++ y = z at ho
          cases ho with
          | obj a more _ x ha hm ho =>
            exact handleKey_next_cut hcb (l := l) ⟨by rw [h1]; exact hc, h3, by rw [h2]; exact hl'⟩ ha hm (by rw [hps.2]; exact ho) (by rw [h1]; exact hz)
      · unfold handleKey
        rw [if_neg (by decide)]
        rcases hcall : st'.rj.nextKeyBytes F with ⟨rj, key | e2 | _ | _⟩
        · exact absurd hcall (nextKey_sticks (by rw [h1]; exact hc) (by rw [h1]; exact hst))
        · trivial
        · trivial
        · trivial
    rcases r with r | e | _
    · simp only
      rcases hre : runEnd { st with baton := b', pool := p } act with ⟨st', _ | m⟩
      · exact main _ hre
      · trivial
    · simp only
      rcases hre : runEnd { st with baton := b', pool := p } act with ⟨st', _ | m⟩
      · exact main _ hre
      · trivial
    · trivial

theorem handleArray_cut {cb : Callbacks β} (hcb : Careful cb ascii F y K) {pos : Pos} (hpos : pos = .arrayBegin ∨ pos = .arrayMiddle)
    {st : St β} (h : J ascii one F y R K pos st) : GoodI ascii one F y R K (handleArray F cb pos st) := by
  obtain ⟨hc, hK, l, hl, hat⟩ := h
  unfold handleArray
  rcases hpos with rfl | rfl
  · rw [if_pos rfl]
    rcases hat with ⟨⟨w, items, x, hr, hw, hm, ho⟩, hne⟩ | ⟨h, _⟩
    rotate_left
    · rcases h with h | h <;> cases h
    have hca := callAction_cut hcb (p := .array) (st := st) (v := .arr w items) (ws := []) (x := x) hc hK trivial ⟨hw, hm⟩
      (fun h => h.elim) (by intro c hc; simp at hc) (by rw [hr]; simp [Val.text]) (fun _ => ⟨rfl, hne (.inl rfl)⟩)
    rcases hcall : callAction cb .array st with ⟨st', _ | _ | r2⟩
    · rw [hcall] at hca
      obtain ⟨h1, h2, h3, ws', _, h5, h6⟩ := hca
      obtain ⟨rfl, _⟩ := h6 (by decide)
      simp only
      rcases hpush : st'.pool.pushAssoc posLayout [Pos.arrayMiddle.byte] nameArray with ⟨p, r | e | _⟩
      · rw [h1] at hpush
        exact handleItem_begin_cut hcb (st := { st' with pool := p }) ⟨h3, h2, hl.push_ok hpush⟩ hw hm ho (by
          show st'.rj.rest ++ y = _
          rw [h5]; simp [Val.text])
      · trivial
      · trivial
    · rw [hcall] at hca
      obtain ⟨h1, h2, h3, h4⟩ := hca
      simp only
      rcases ht : topPos st' "Context stack is empty when handling ValueIsConsumed in array" with q | e | _ | _
      · rcases h4 with h4 | ⟨h4, _⟩
        · exact after_value h3 h2 (by rw [h1]; exact hl) (by rw [h4]; exact ho) ht
        · exact h4.elim
      · trivial
      · trivial
      · trivial
    · simp only
      rcases hr2 : (r2.cast : SRes (Option Byte × Pos)) with p | e | _ | _
      · exact absurd hr2 (cast_ne _ _)
      · trivial
      · trivial
      · trivial
  · rw [if_neg (by decide)]
    rcases hat with ⟨⟨ps, hps, ho⟩, _⟩ | ⟨_, hst⟩
    · cases l with
      | nil => simp at hps
      | cons e l =>
        rw [hps] at ho
        obtain ⟨q, nm⟩ := e
        simp only [List.map_cons, List.cons.injEq] at hps
        obtain ⟨rfl, hps⟩ := hps
        generalize hz : st.rj.rest ++ y = z at ho
        cases ho with
        | arr a more _ x ha hm ho =>
          exact handleItem_next_cut hcb (l := l) ⟨hc, hK, hl⟩ ha hm (by rw [hps]; exact ho) hz
    · unfold handleItem
      rw [if_neg (by decide)]
      rcases hcall : st.rj.arrayStep F with ⟨rj, key | e2 | _ | _⟩
      · exact absurd hcall (arrayStep_sticks hc hst)
      · trivial
      · trivial
      · trivial

/-- A turn at the top level, when there is a document to come. -/
theorem turn_top_cut {cb : Callbacks β} (hcb : Careful cb ascii F y K) {opt : Options} (hsse : opt.sseTokens = [])
    {st : St β} {l : List (Pos × Bytes)} (h : Held ascii F R K l st) {ps : List Pos} (hp : l.map (·.1) = .top :: ps) {b : Bytes} {v : Val} {dl : Docs}
    (hd : CutDocs (cutRules ascii) y.length ((b, v) :: dl)) (hone : one = true → dl = [])
    (hr : st.rj.rest ++ y = Docs.text ((b, v) :: dl) []) : CutGood ascii one F y R K (turn F cb opt .top st) := by
  obtain ⟨hc, hK, hl⟩ := h
  obtain ⟨hb, hv, hnum, hlen, hdl⟩ := hd
  obtain ⟨c, r, e, hsp, hff, _⟩ := cut_first hv
  simp only [Docs.text] at hr
  obtain ⟨t, ht⟩ : ∃ t, st.rj.rest = b ++ c :: t := by
    have h1 : st.rj.rest = (b ++ (v.text ++ Docs.text dl [])).take st.rj.rest.length := by rw [← hr, List.take_left]
    have h2 := congrArg List.length hr
    simp only [List.length_append] at h2 hlen
    obtain ⟨j, hj⟩ : ∃ j, st.rj.rest.length = b.length + (j + 1) := ⟨st.rj.rest.length - b.length - 1, by omega⟩
    rw [hj, List.take_append, List.take_of_length_le (by omega), show b.length + (j + 1) - b.length = j + 1 by omega, e,
      List.cons_append, List.take_succ_cons] at h1
    exact ⟨_, h1⟩
  obtain ⟨s', e1, hi, hm⟩ := hc.peek ht hb hsp hff
  have hrest := rest_after hm ht rfl
  have hx : c :: t ++ y = v.text ++ Docs.text dl [] := by
    rw [ht, List.append_assoc] at hr
    exact List.append_cancel_left hr
  unfold turn
  rw [if_neg (by decide), if_neg (by decide), e1]
  simp only
  rw [if_neg (by decide)]
  refine onValue_cut hcb hsse ⟨hi, hK, l, ps, v, Docs.text dl [], r, hl, hp, .top dl ps hdl hone, hv, fun h => absurd h hnum, e, ?_, ?_⟩
  · show s'.rest ++ y = _
    rw [hrest]; exact hx
  · show s'.rest ≠ []
    rw [hrest]; simp

theorem turn_cut {cb : Callbacks β} (hcb : Careful cb ascii F y K) {opt : Options} (hsse : opt.sseTokens = []) (hy : y ≠ [])
    {pos : Pos} {st : St β} (h : J ascii one F y R K pos st) : CutGood ascii one F y R K (turn F cb opt pos st) := by
  by_cases hob : pos = .objectBegin ∨ pos = .objectMiddle
  · have := handleObject_cut hcb hob h
    unfold turn
    rw [if_pos hob]
    rcases hho : handleObject F cb pos st with ⟨st', p | e | _ | _⟩
    · rw [hho] at this; exact this
    · simp [CutGood]
    · simp [CutGood]
    · simp [CutGood]
  by_cases har : pos = .arrayBegin ∨ pos = .arrayMiddle
  · have := handleArray_cut hcb har h
    unfold turn
    rw [if_neg hob, if_pos har]
    rcases hho : handleArray F cb pos st with ⟨st', ⟨_ | c, p⟩ | e | _ | _⟩
    · rw [hho] at this; exact this
    · rw [hho] at this
      obtain ⟨rfl, hva⟩ := this
      simp only [if_true]
      exact onValue_cut hcb hsse hva
    · simp [CutGood]
    · simp [CutGood]
    · simp [CutGood]
  cases pos with
  | objectBegin => exact absurd (.inl rfl) hob
  | objectMiddle => exact absurd (.inr rfl) hob
  | arrayBegin => exact absurd (.inl rfl) har
  | arrayMiddle => exact absurd (.inr rfl) har
  | top =>
    obtain ⟨hc, hK, l, hl, ⟨⟨ps, hps, ho⟩, _⟩ | ⟨h, _⟩⟩ := h
    · rw [hps] at ho
      generalize hz : st.rj.rest ++ y = z at ho
      cases ho with
      | top dl ps hd hone =>
        cases dl with
        | nil =>
          simp only [Docs.text, List.append_eq_nil_iff] at hz
          exact absurd hz.2 hy
        | cons d dl =>
          obtain ⟨b, v⟩ := d
          exact turn_top_cut hcb hsse ⟨hc, hK, hl⟩ hps hd (fun h => by cases hone h) hz
    · rcases h with h | h <;> cases h
  | objectBetweenKV =>
    obtain ⟨hc, hK, l, hl, ⟨⟨ps, m, v, x, hps, hm, hv, hfol, hz, ho⟩, _⟩ | ⟨h, _⟩⟩ := h
    · unfold turn
      rw [if_neg (by decide), if_neg (by decide)]
      rcases hcall : st.rj.peek F with ⟨rj, c | e | _ | _⟩
      · simp only [if_true]
        obtain ⟨ws, t, e1, hws, hcw, h2, n, hmv⟩ := RJ.peek_text hc.sync (by have := hc.eight; omega) hc.fuel hcall
        have hc' : CInv ascii F rj := hc.moved hmv (hc.reach_op .peek (r := .ok ()) (by simp [Op.run, hcall, Res.void]))
        obtain ⟨c', r, e, hsp, hff, _⟩ := cut_first hv
        rw [e1, e, List.append_assoc, List.cons_append, List.cons_append] at hz
        obtain ⟨_, rfl, h4⟩ := spaces_unique hws hcw ((ws_iff m).mpr hm) (isAsciiWs_false hsp hff) hz
        refine onValue_cut hcb hsse ⟨hc', hK, l, ps, v, x, r, hl, hps, by rw [hps] at ho; exact ho, hv, fun _ => by decide, e, ?_, ?_⟩
        · show rj.rest ++ y = _
          rw [h2, e, List.cons_append, List.cons_append, h4]
        · show rj.rest ≠ []
          rw [h2]; simp
      · simp only
        by_cases he : e.type = .json .eofWhileParsingValue
        · rw [if_pos he, if_pos (by decide)]; simp [CutGood]
        · rw [if_neg he]; simp [CutGood]
      · simp [CutGood]
      · simp [CutGood]
    · rcases h with h | h <;> cases h

theorem mainLoop_cut {cb : Callbacks β} (hcb : Careful cb ascii F y K) {opt : Options} (hsse : opt.sseTokens = []) (hy : y ≠ [])
    (hone : opt.stopEarly = true → one = true) :
    ∀ n prog pos st, J ascii one F y R K pos st → (mainLoop F cb opt n prog pos st).2 ≠ .ok () := by
  intro n
  induction n with
  | zero => intro prog pos st _; simp [mainLoop]
  | succ n ih =>
    intro prog pos st h
    unfold mainLoop
    by_cases hs : prog = true ∧ opt.stopEarly = true ∧ pos = .top
    · exfalso
      obtain ⟨_, h1, rfl⟩ := hs
      obtain ⟨hc, hK, l, hl, ⟨⟨ps, hps, ho⟩, _⟩ | ⟨h, _⟩⟩ := h
      · rw [hps] at ho
        generalize hz : st.rj.rest ++ y = z at ho
        cases ho with
        | top dl ps hd ho1 =>
          rw [ho1 (hone h1)] at hz
          simp only [Docs.text, List.append_eq_nil_iff] at hz
          exact hy hz.2
      · rcases h with h | h <;> cases h
    · rw [if_neg hs]
      have := turn_cut (R := R) hcb hsse hy h
      rcases ht : turn F cb opt pos st with ⟨st', p | r⟩
      · rw [ht] at this
        exact ih _ _ _ this
      · rw [ht] at this
        exact this

/-- `scan` on documents of which the end is missing. -/
theorem scan_cut {cb : Callbacks β} (hcb : Careful cb ascii F y K) {opt : Options} (hsse : opt.sseTokens = []) (hy : y ≠ [])
    {turns : Nat} {st : St β} {dl : Docs} {l : List (Pos × Bytes)} (h : Held ascii F R K l st) (hd : CutDocs (cutRules ascii) y.length dl) (hne : dl ≠ [])
    (hstop : opt.stopEarly = false ∨ dl.length = 1) (hr : st.rj.rest ++ y = Docs.text dl []) :
    (scan turns F cb opt st).2 ≠ .ok () := by
  obtain ⟨hc, hK, hl⟩ := h
  unfold scan
  rcases hpush : st.pool.pushAssoc posLayout [Pos.top.byte] nameTop with ⟨p, r | e | _⟩
  · have hl' := hl.push_ok hpush
    cases dl with
    | nil => exact absurd rfl hne
    | cons d dl =>
      obtain ⟨b, v⟩ := d
      cases turns with
      | zero => simp [mainLoop]
      | succ n =>
        simp only [mainLoop]
        rw [if_neg (by simp)]
        have := turn_top_cut (one := opt.stopEarly) (R := R) hcb hsse (st := { st with pool := p }) ⟨hc, hK, hl'⟩ rfl hd (by
          intro h1
          rcases hstop with h2 | h2
          · rw [h2] at h1; cases h1
          · simpa using h2) hr
        rcases ht : turn F cb opt .top { st with pool := p } with ⟨st', p | r⟩
        · rw [ht] at this
          exact mainLoop_cut hcb hsse hy id _ _ _ _ this
        · rw [ht] at this
          exact this
  · simp
  · simp

end

end Verif.Scan
