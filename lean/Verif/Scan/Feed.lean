import Verif.RJiter.Hopeless
import Verif.Scan.Top

/-!
# Streams of documents and SSE tokens
-/

namespace Verif.Scan

open Verif.RJiter
open Verif.U8Pool (Pool PRes PoolError)

variable {β : Type}

/-! ## Specification -/

/-- A document, a token, or an array `[w t a]` with a token as its only item, like `[DONE]`. -/
inductive Part where
  | doc (v : Val)
  | token (t : Bytes)
  | boxed (w t a : Bytes)

def Part.text : Part → Bytes
  | .doc v => v.text
  | .token t => t
  | .boxed w t a => 91 :: (w ++ (t ++ (a ++ [93])))

/-- Documents and tokens, each behind some space. -/
abbrev Feed := List (Bytes × Part)

/-- The text of the feed, with `tail` behind it. -/
def Feed.text : Feed → Bytes → Bytes
  | [], tail => tail
  | (b, x) :: fs, tail => b ++ (x.text ++ Feed.text fs tail)

/-- The documents of a feed. -/
def Feed.docs : Feed → Docs
  | [] => []
  | (b, .doc v) :: fs => (b, v) :: Feed.docs fs
  | (_, .token _) :: fs => Feed.docs fs
  | (_, .boxed _ _ _) :: fs => Feed.docs fs

/-- A byte that is neither space nor the first byte of a JSON value. -/
def Alien (c : Byte) : Prop :=
  ¬ Space c ∧ c ≠ 12 ∧ c ≠ 34 ∧ c ≠ 91 ∧ c ≠ 123 ∧ c ≠ 110 ∧ c ≠ 116 ∧ c ≠ 102 ∧ c ≠ 45 ∧ ¬ Digit c

/-- `t` is the first of the tokens that the text starts with. -/
def Picks (tokens : List Bytes) (t text : Bytes) : Prop :=
  ∃ before after, tokens = before ++ t :: after ∧ (∀ u ∈ before, ¬ u <+: text) ∧ t <+: text

/-- Not an object with members. -/
def Val.Memberless : Val → Prop
  | .obj _ (.cons ..) => False
  | _ => True

/-- The documents meet the rules, no number runs into what follows it, the tokens are of the list and cannot be mistaken for
values. `loose`, or there is space between a token and an object with members behind it; `after`: there is a token in
front. `boxes`: tokens in arrays are allowed. -/
def Feed.Meets (Rs : Rules) (tokens : List Bytes) (loose boxes : Prop) (tail : Bytes) : Bool → Feed → Prop
  | _, [] => True
  | after, (b, .doc v) :: fs => Spaces b ∧ v.Meets Rs ∧ v.HeadMeets Rs b ∧ Ends v (Feed.text fs tail) ∧
      (after = true → loose ∨ b ≠ [] ∨ v.Memberless) ∧ Feed.Meets Rs tokens loose boxes tail false fs
  | _, (b, .token t) :: fs => Spaces b ∧ (∃ c r, t = c :: r ∧ Alien c) ∧ Picks tokens t (t ++ Feed.text fs tail) ∧
      Feed.Meets Rs tokens loose boxes tail true fs
  | _, (b, .boxed w t a) :: fs => boxes ∧ Spaces b ∧ Spaces w ∧ Spaces a ∧ (∃ c r, t = c :: r ∧ Alien c ∧ c ≠ 93) ∧
      Picks tokens t (t ++ (a ++ 93 :: Feed.text fs tail)) ∧ Feed.Meets Rs tokens loose boxes tail false fs

/-- What becomes of the client's state at a token, at the start of an array with a token, and at the token in it. -/
structure Marks (β : Type) where
  token : β → β
  array : β → β
  inside : β → β

/-- Nothing happens. -/
def Marks.nothing : Marks β := ⟨id, id, id⟩

/-- What scanning a feed should do. -/
def Feed.scan (H : Handler β) (K : Marks β) (R : Room) (path : List Bytes) : Feed → β → Out β
  | [], b => .done b
  | (_, .doc v) :: fs, b => (v.scan H R path b).bind (Feed.scan H K R path fs)
  | (_, .token _) :: fs, b => Feed.scan H K R path fs (K.token b)
  | (_, .boxed _ _ _) :: fs, b => (H.end .array path (K.inside (K.array b))).bind (Feed.scan H K R path fs)

/-- If tokens do nothing, only the documents count. -/
theorem Feed.scan_docs (H : Handler β) (R : Room) (path : List Bytes) (he : ∀ b, H.end .array path b = .done b) : ∀ (fs : Feed) (b : β),
    Feed.scan H .nothing R path fs b = Docs.scan H R path fs.docs b
  | [], _ => rfl
  | (_, .doc v) :: fs, b => by
    simp only [Feed.scan, Feed.docs, Docs.scan]
    cases v.scan H R path b with
    | done b' => exact Feed.scan_docs H R path he fs b'
    | stop b' f => rfl
  | (_, .token t) :: fs, b => by
    simp only [Feed.scan, Feed.docs, Marks.nothing, id]
    exact Feed.scan_docs H R path he fs b
  | (_, .boxed _ _ _) :: fs, b => by
    simp only [Feed.scan, Feed.docs, Marks.nothing, id, he, Out.bind]
    exact Feed.scan_docs H R path he fs b

/-- The callbacks have no action for the event at the path, or one that does nothing to the parser and returns `None`. `k` is
what happens to the client's state. -/
def Silent (cb : Callbacks β) (p : Pseudo) (path : List Bytes) (k : β → β) : Prop :=
  ∀ (b : β) (s : RJ), match cb.find p ⟨path, path.length⟩ b with
    | (b', none) => b' = k b
    | (b', some act) => act s b' = ((s, k b), .op .none)

/-! ## One turn at a token -/

variable {F : Nat} {cb : Callbacks β} {opt : Options} {H : Handler β} {M : Mode} {L : Nat} {R : Room}

theorem callAction_silent {p : Pseudo} {path : List Bytes} {tok : β → β} (h : Silent cb p path tok) {st : St β}
    (hc : Ctx.of st.pool = ⟨path, path.length⟩) : callAction cb p st = ({ st with baton := tok st.baton }, .go) := by
  have hx := h st.baton st.rj
  unfold callAction
  rw [hc]
  rcases hf : cb.find p ⟨path, path.length⟩ st.baton with ⟨b', act⟩
  rw [hf] at hx
  cases act with
  | none => simp only at hx ⊢; rw [hx]
  | some act => simp only at hx ⊢; rw [hx]

theorem skipBasic_alien {c : Byte} {t : Bytes} (hc : Alien c) {s : RJ} (hi : Inv M L F s) (hr : s.rest = c :: t) :
    ∃ s' e, skipBasic F c s = (s', .err e) ∧ Inv M L F s' ∧ s.Moved s' 0 := by
  obtain ⟨h1, h2, h3, h4, h5, h6, h7, h8, h9, h10⟩ := hc
  unfold skipBasic
  rw [if_neg h3, if_neg h6, if_neg (by simp [h7, h8])]
  obtain ⟨s', e, he, hm⟩ := RJ.nextNumber_fails s F hi.sync (by have := hi.eight; omega) hi.clean hi.fuel hr (isAsciiWs_false h1 h2) h9
    (by
      cases hx : Jiter.isDigit c with
      | false => rfl
      | true => exact absurd ((Jiter.isDigit_iff c).1 hx) h10)
  rw [he]
  exact ⟨s', _, rfl, hi.moved hm (hi.reach_op .nextNumberBytes (r := .err e) (by simp [Op.run, he, Res.void])), hm⟩

theorem skipSse_picks {t : Bytes} : ∀ (before : List Bytes) {after : List Bytes} {s : RJ} {text : Bytes}, Inv M L F s → s.rest = text →
    (∀ u ∈ before ++ t :: after, u.length ≤ L) → (∀ u ∈ before, ¬ u <+: text) → t <+: text →
    ∃ s', skipSse F (before ++ t :: after) s = (s', some (.ok ())) ∧ Inv M L F s' ∧ s.Moved s' t.length
  | [], after, s, text, hi, hr, hl, hb, ht => by
    have hL := hi.len
    obtain ⟨s', e, hm⟩ := (C14_known_skip_token s t F hi.sync (by have := hi.eight; omega)
      (by have := hl t (by simp); omega) hi.clean hi.fuel).1 (by rw [hr]; exact ht)
    simp only [List.nil_append, skipSse, e]
    exact ⟨s', rfl, hi.moved hm (hi.reach_op (.knownSkipToken t) (r := .ok ()) (by simp [Op.run, e])), hm⟩
  | u :: before, after, s, text, hi, hr, hl, hb, ht => by
    have hL := hi.len
    obtain ⟨s', e, hm⟩ := (C14_known_skip_token s u F hi.sync (by have := hi.eight; omega)
      (by have := hl u (by simp); omega) hi.clean hi.fuel).2 (by rw [hr]; exact hb u (by simp))
    have hi' : Inv M L F s' := hi.moved hm (hi.reach_op (.knownSkipToken u) (r := .err ⟨.json .expectedSomeIdent, s.currentIndex⟩)
      (by simp [Op.run, e]))
    obtain ⟨s2, e2, hi2, hm2⟩ := skipSse_picks before (after := after) (text := text) hi' (by rw [hm.rest, hr]; rfl)
      (fun x hx => hl x (by simp only [List.cons_append, List.mem_cons]; exact .inr hx)) (fun x hx => hb x (by simp [hx])) ht
    refine ⟨s2, ?_, hi2, by simpa using hm.trans hm2⟩
    simp only [List.cons_append, skipSse, e, e2]

theorem skipSse_none : ∀ (tokens : List Bytes) {s : RJ} {text : Bytes}, Inv M L F s → s.rest = text →
    (∀ u ∈ tokens, u.length ≤ L) → (∀ u ∈ tokens, ¬ u <+: text) →
    ∃ s', skipSse F tokens s = (s', none) ∧ Inv M L F s' ∧ s.Moved s' 0
  | [], s, text, hi, hr, hl, hb => ⟨s, rfl, hi, .refl hi.sync⟩
  | u :: tokens, s, text, hi, hr, hl, hb => by
    have hL := hi.len
    obtain ⟨s', e, hm⟩ := (C14_known_skip_token s u F hi.sync (by have := hi.eight; omega)
      (by have := hl u (by simp); omega) hi.clean hi.fuel).2 (by rw [hr]; exact hb u (by simp))
    have hi' : Inv M L F s' := hi.moved hm (hi.reach_op (.knownSkipToken u) (r := .err ⟨.json .expectedSomeIdent, s.currentIndex⟩)
      (by simp [Op.run, e]))
    obtain ⟨s2, e2, hi2, hm2⟩ := skipSse_none tokens (text := text) hi' (by rw [hm.rest, hr]; rfl)
      (fun x hx => hl x (by simp [hx])) (fun x hx => hb x (by simp [hx]))
    refine ⟨s2, ?_, hi2, by simpa using hm.trans hm2⟩
    simp only [skipSse, e, e2]

/-- A token where tokens are skipped. -/
theorem onValue_token {pos : Pos} {nm : Bytes} {l : List (Pos × Bytes)} {tok : β → β} (hq : Silent cb .atom (nm :: names l) tok)
    (hL : ∀ u ∈ opt.sseTokens, u.length ≤ L) {t rest : Bytes} {c : Byte} {r : Bytes} {st : St β} (hi : Inv M L F st.rj)
    (hst : Holds st.pool R ((pos, nm) :: l)) (hpos : pos = .top ∨ (pos = .arrayMiddle ∧ l.length = 1)) (ht : t = c :: r)
    (hc : Alien c) (hp : Picks opt.sseTokens t (t ++ rest)) (hr : st.rj.rest = t ++ rest) :
    ∃ s', onValue F cb opt c pos st = (⟨s', tok st.baton, st.pool⟩, .next pos) ∧ Inv M L F s' ∧ st.rj.Moved s' t.length := by
  obtain ⟨s2, e, e2, hi2, hm2⟩ := skipBasic_alien hc hi (t := r ++ rest) (by rw [hr, ht]; rfl)
  obtain ⟨before, after, h1, h2, h3⟩ := hp
  rw [h1] at hL
  obtain ⟨s3, e3, hi3, hm3⟩ := skipSse_picks before (text := t ++ rest) hi2 (by rw [hm2.rest, hr]; rfl) hL h2 h3
  have hctx : Ctx.of st.pool = ⟨nm :: names l, (nm :: names l).length⟩ := by simpa using hst.ctx
  have hlen := hst.len
  refine ⟨s3, ?_, hi3, ?_⟩
  · unfold onValue
    rw [if_neg hc.2.2.2.1, if_neg hc.2.2.2.2.1, callAction_silent (path := nm :: names l) hq (st := st) hctx]
    simp only
    rw [e2]
    simp only
    rw [if_pos (by
      rcases hpos with h | ⟨h, h'⟩
      · exact .inl h
      · refine .inr ⟨.inr h, ?_⟩
        simp only [List.length_cons] at hlen
        omega), h1, e3]
  · have := hm2.trans hm3
    simpa using this

theorem token_turn {nm : Bytes} {l : List (Pos × Bytes)} {tok : β → β} (hq : Silent cb .atom (nm :: names l) tok)
    (hL : ∀ u ∈ opt.sseTokens, u.length ≤ L) {b t rest : Bytes} {c : Byte} {r : Bytes} {st : St β} (hi : Inv M L F st.rj)
    (hst : Holds st.pool R ((.top, nm) :: l)) (hb : Spaces b) (ht : t = c :: r) (hc : Alien c)
    (hp : Picks opt.sseTokens t (t ++ rest)) (hr : st.rj.rest = b ++ (t ++ rest)) :
    ∃ s', turn F cb opt .top st = (⟨s', tok st.baton, st.pool⟩, .next .top) ∧ Inv M L F s' ∧
      st.rj.Moved s' (b.length + t.length) := by
  obtain ⟨s1, e1, hi1, hm1⟩ := hi.peek (ws := b) (c := c) (t := r ++ rest) (by rw [hr, ht]; rfl) hb hc.1 hc.2.1
  have hr1 : s1.rest = t ++ rest := moved_rest hm1 hr
  obtain ⟨s3, e3, hi3, hm3⟩ := onValue_token (opt := opt) hq hL (st := { st with rj := s1 }) hi1 hst (.inl rfl) ht hc hp hr1
  exact ⟨s3, by rw [turn_top e1, e3], hi3, hm1.trans hm3⟩

/-- An array with a token. -/
theorem boxed_run (hI : Implements cb H (Inv M L F) (rules M L)) {nm : Bytes} {K : Marks β} (hqa : Silent cb .array [nm] K.array)
    (hqi : Silent cb .atom [nameArray, nm] K.inside) (hfit : R.Fits [nm] nameArray)
    (hL : ∀ u ∈ opt.sseTokens, u.length ≤ L) {b w t a rest : Bytes} {c : Byte} {r : Bytes} {st : St β} (hi : Inv M L F st.rj)
    (hst : Holds st.pool R [(.top, nm)]) (hb : Spaces b) (hw : Spaces w) (ha : Spaces a) (ht : t = c :: r) (hc : Alien c) (h93 : c ≠ 93)
    (hp : Picks opt.sseTokens t (t ++ (a ++ 93 :: rest))) (hr : st.rj.rest = b ++ (91 :: (w ++ (t ++ (a ++ 93 :: rest))))) :
    Reaches F cb opt (turn F cb opt .top st) 2 (H.end .array [nm] (K.inside (K.array st.baton))) .top
      (Behind M L F R [(.top, nm)] st.rj (b.length + (91 :: (w ++ (t ++ (a ++ [93])))).length)) := by
  obtain ⟨s1, e1, hi1, hm1⟩ := hi.peek (ws := b) (c := 91) hr hb (by unfold Space; decide) (by decide)
  have hr1 : s1.rest = 91 :: (w ++ (t ++ (a ++ 93 :: rest))) := moved_rest hm1 hr
  rw [turn_top e1, show onValue F cb opt 91 .top { st with rj := s1 } = ({ st with rj := s1 }, .next .arrayBegin) from rfl]
  refine Reaches.leads (Leads.step (by decide)) ?_ (fun _ h => h) (m := 1) (by omega)
  rw [turn_array F cb opt (.inl rfl)]
  unfold handleArray
  rw [if_pos rfl, callAction_silent (path := [nm]) hqa (st := { st with rj := s1 }) (by simpa using hst.ctx)]
  obtain ⟨p', r', e, hpl⟩ := hst.push .arrayMiddle nameArray hfit
  simp only
  rw [e]
  simp only
  have hr1' : s1.rest = 91 :: (w ++ c :: (r ++ (a ++ 93 :: rest))) := by rw [hr1, ht]; rfl
  obtain ⟨s2, e2, hi2, hm2, hj2⟩ := hi1.knownArray hr1' hw hc.1 hc.2.1
  rw [if_neg h93] at e2 hm2
  rw [handleItem_some (rj := s2) (c := c) (by simpa using e2)]
  have hr2 : s2.rest = t ++ (a ++ 93 :: rest) := by
    rw [hm2.rest, hr1, show 91 :: (w ++ (t ++ (a ++ 93 :: rest))) = (91 :: w) ++ (t ++ (a ++ 93 :: rest)) by simp]
    apply List.drop_left'
    simp; omega
  obtain ⟨s3, e3, hi3, hm3⟩ := onValue_token (opt := opt) (pos := .arrayMiddle) (nm := nameArray) (l := [(.top, nm)]) hqi hL
    (st := ⟨s2, K.array st.baton, p'⟩) hi2 hpl (.inr ⟨rfl, rfl⟩) ht hc hp hr2
  have e3' : onValue F cb opt c .arrayMiddle ⟨s2, K.array st.baton, p'⟩ = (⟨s3, K.inside (K.array st.baton), p'⟩, .next .arrayMiddle) := e3
  rw [e3']
  have hr3 : s3.rest = a ++ 93 :: rest := moved_rest hm3 hr2
  obtain ⟨s4, e4, hi4, hm4, hj4⟩ := hi3.arrayEnd hr3 ha
  have hlead := Leads.step (F := F) (cb := cb) (opt := opt) (p := .arrayMiddle) (st := ⟨s3, K.inside (K.array st.baton), p'⟩) (by decide)
  rw [turn_array F cb opt (.inr rfl), handleArray_middle] at hlead
  have := handleItem_none (opt := opt) hI (begin := false) (st := ⟨s3, K.inside (K.array st.baton), p'⟩) hpl hi4 hj4 (by simpa using e4)
  refine Reaches.leads hlead this (Behind.from (((hm1.trans hm2).trans hm3).trans hm4) ?_) (by omega)
  simp; omega

/-! ## The run over a feed -/

/-- Behind the feed there is a token. -/
def Feed.lastToken : Bool → Feed → Bool
  | after, [] => after
  | _, (_, .doc _) :: fs => Feed.lastToken false fs
  | _, (_, .token _) :: fs => Feed.lastToken true fs
  | _, (_, .boxed _ _ _) :: fs => Feed.lastToken false fs

theorem Inv.peekPart {s : RJ} (h : Inv M L F s) {v : Val} {ws t : Bytes} (hv : v.Meets (rules M L)) (hw : Spaces ws)
    (hh : v.HeadMeets (rules M L) ws) (hrd : v.Memberless ∨ M.loose ∨ ws ≠ [] ∨ Ready s) (hr : s.rest = ws ++ (v.text ++ t)) :
    ∃ s' c r, s.peek F = (s', .ok c) ∧ v.text = c :: r ∧ Inv M L F s' ∧ s.Moved s' ws.length ∧ v.Safe s' := by
  rcases hrd with hrd | hrd
  · obtain ⟨c, r, hc, h1, h2, h3⟩ := v.first hv
    obtain ⟨s', e, hi, hm⟩ := h.peek (ws := ws) (c := c) (t := r ++ t) (by rw [hr, hc]; rfl) hw h1 h2
    refine ⟨s', c, r, e, hc, hi, hm, ?_⟩
    unfold Val.Safe
    split
    · exact hrd.elim
    · trivial
  · exact h.peekValue hv hw hh hrd hr

theorem feed_run (hI : Implements cb H (Inv M L F) (rules M L)) (hopt : opt.stopEarly = false)
    (hL : ∀ u ∈ opt.sseTokens, u.length ≤ L) (tail nm : Bytes) (l : List (Pos × Bytes)) {K : Marks β}
    (hq : Silent cb .atom (nm :: names l) K.token) {boxes : Prop}
    (hbox : boxes → l = [] ∧ R.Fits [nm] nameArray ∧ Silent cb .array [nm] K.array ∧ Silent cb .atom [nameArray, nm] K.inside) :
    ∀ (fs : Feed) (after pr : Bool) (st : St β), Inv M L F st.rj → (after = false → Ready st.rj) →
      Holds st.pool R ((.top, nm) :: l) → Feed.Meets (rules M L) opt.sseTokens M.loose boxes tail after fs →
      st.rj.rest = Feed.text fs tail →
      match Feed.scan H K R (nm :: names l) fs st.baton with
      | .done b => ∃ st' pr' k, k + tail.length ≤ fs.length + (Feed.text fs tail).length ∧ st'.baton = b ∧ Inv M L F st'.rj ∧
          (fs.lastToken after = false → Ready st'.rj) ∧ Holds st'.pool R ((.top, nm) :: l) ∧ st'.rj.rest = tail ∧
          (∃ m, m + tail.length = (Feed.text fs tail).length ∧ st.rj.Moved st'.rj m) ∧
          ∀ n, mainLoop F cb opt (n + k) pr .top st = mainLoop F cb opt n pr' .top st'
      | .stop b f => ∃ st' e, st'.baton = b ∧ Faults f st' e ∧
          ∀ n, fs.length + (Feed.text fs tail).length + 1 ≤ n → mainLoop F cb opt n pr .top st = (st', .err e) := by
  intro fs
  induction fs with
  | nil =>
    intro after pr st hi hrd hst hm hr
    simp only [Feed.scan, Feed.text] at *
    exact ⟨st, pr, 0, by simp, rfl, hi, hrd, hst, hr, ⟨0, by simp, .refl hi.sync⟩, fun n => rfl⟩
  | cons d fs ih =>
    rcases d with ⟨b, v | t | ⟨w, t, a⟩⟩
    · intro after pr st hi hrd hst hm hr
      obtain ⟨hb, hv, hh, he, hgap, hm⟩ := hm
      simp only [Feed.text, Part.text] at hr ⊢
      obtain ⟨s', c, r, e, hc, hi', hm0, hsafe⟩ := hi.peekPart hv hb hh (by
        cases after with
        | false => exact .inr (.inr (.inr (hrd rfl)))
        | true =>
          rcases hgap rfl with h | h | h
          · exact .inr (.inl h)
          · exact .inr (.inr (.inl h))
          · exact .inl h) hr
      have hdoc := valRuns (F := F) (cb := cb) (opt := opt) (R := R) hI v hv { st with rj := s' } .top nm l _ c r hi' hst hc
        (moved_rest hm0 hr) he hsafe
      rw [← turn_top (opt := opt) (cb := cb) e] at hdoc
      simp only [Feed.scan]
      have hvl : 1 ≤ v.text.length := by rw [hc]; simp
      cases hsc : v.scan H R (nm :: names l) st.baton with
      | stop b' f =>
        simp only at hdoc
        rw [hsc] at hdoc
        obtain ⟨st', e', h1, h2, h3⟩ := hdoc.stop_run
        refine ⟨st', e', h1, h2, ?_⟩
        intro n hn
        simp only [List.length_append, List.length_cons] at hn
        rw [show n = (n - 1) + 1 by omega, mainLoop_go (by simp [hopt]), h3 _ (by omega)]
      | done b' =>
        simp only at hdoc
        rw [hsc] at hdoc
        obtain ⟨st', k, h1, ⟨hi2, hm2, hst2, hj2⟩, hk, h3⟩ := hdoc.done_run
        have hr2 : st'.rj.rest = Feed.text fs tail := moved_rest hm2 (moved_rest hm0 hr)
        have ih' := ih false true st' hi2 (fun _ h0 => absurd h0 (Nat.ne_of_gt hj2)) hst2 hm hr2
        simp only [Out.bind]
        rw [h1] at ih'
        cases hds : Feed.scan H K R (nm :: names l) fs b' with
        | done b'' =>
          rw [hds] at ih'
          obtain ⟨st2, pr', k', h4, h5, h6, h7, h8, h9, ⟨m, hm3, h10⟩, h11⟩ := ih'
          refine ⟨st2, pr', k' + k + 1, ?_, h5, h6, h7, h8, h9, ⟨b.length + v.text.length + m, ?_, ?_⟩, ?_⟩
          · simp only [List.length_append, List.length_cons]; omega
          · simp only [List.length_append]; omega
          · exact (hm0.trans hm2).trans h10
          · intro n
            rw [show n + (k' + k + 1) = (n + k' + k) + 1 by omega, mainLoop_go (by simp [hopt]), h3 _ (by omega),
              show n + k' + k - k = n + k' by omega, h11]
        | stop b'' f =>
          rw [hds] at ih'
          obtain ⟨st2, e', h4, h5, h6⟩ := ih'
          refine ⟨st2, e', h4, h5, ?_⟩
          intro n hn
          simp only [List.length_append, List.length_cons] at hn
          rw [show n = (n - 1) + 1 by omega, mainLoop_go (by simp [hopt]), h3 _ (by omega), h6 _ (by omega)]
    · intro after pr st hi hrd hst hm hr
      obtain ⟨hb, ⟨c, r, ht, hc⟩, hp, hm⟩ := hm
      simp only [Feed.text, Part.text] at hr ⊢
      obtain ⟨s', e, hi', hm'⟩ := token_turn hq hL hi hst hb ht hc hp hr
      have hr' : s'.rest = Feed.text fs tail := by
        rw [hm'.rest, hr, ← List.append_assoc, ← List.length_append, List.drop_left]
      have ih' := ih true true ⟨s', K.token st.baton, st.pool⟩ hi' (by simp) hst hm hr'
      simp only [Feed.scan]
      have hgo : ∀ n, mainLoop F cb opt (n + 1) pr .top st = mainLoop F cb opt n true .top ⟨s', K.token st.baton, st.pool⟩ := by
        intro n
        rw [mainLoop_go (by simp [hopt]), e]
        rfl
      have htl : 1 ≤ t.length := by rw [ht]; simp
      simp only at ih'
      cases hds : Feed.scan H K R (nm :: names l) fs (K.token st.baton) with
      | done b'' =>
        rw [hds] at ih'
        obtain ⟨st2, pr', k', h4, h5, h6, h7, h8, h9, ⟨m, hm3, h10⟩, h11⟩ := ih'
        refine ⟨st2, pr', k' + 1, ?_, h5, h6, h7, h8, h9, ⟨b.length + t.length + m, ?_, hm'.trans h10⟩, ?_⟩
        · simp only [List.length_append, List.length_cons]; omega
        · simp only [List.length_append]; omega
        · intro n
          rw [show n + (k' + 1) = (n + k') + 1 by omega, hgo, h11]
      | stop b'' f =>
        rw [hds] at ih'
        obtain ⟨st2, e', h4, h5, h6⟩ := ih'
        refine ⟨st2, e', h4, h5, ?_⟩
        intro n hn
        simp only [List.length_append, List.length_cons] at hn
        rw [show n = (n - 1) + 1 by omega, hgo, h6 _ (by omega)]
    · intro after pr st hi hrd hst hm hr
      obtain ⟨hbx, hb, hw, ha, ⟨c, r, ht, hc, h93⟩, hp, hm⟩ := hm
      obtain ⟨rfl, hfit, hqa, hqi⟩ := hbox hbx
      have hr : st.rj.rest = b ++ (91 :: (w ++ (t ++ (a ++ 93 :: Feed.text fs tail)))) := by rw [hr]; simp [Feed.text, Part.text]
      have hdoc := boxed_run (opt := opt) hI hqa hqi hfit hL hi hst hb hw ha ht hc h93 hp hr
      simp only [Feed.scan, Feed.text, Part.text]
      have htl : 1 ≤ t.length := by rw [ht]; simp
      have hbl : 3 ≤ (91 :: (w ++ (t ++ (a ++ [93])))).length := by simp; omega
      generalize hx : (91 :: (w ++ (t ++ (a ++ [93])))) = bx at *
      have hr : st.rj.rest = (b ++ bx) ++ Feed.text fs tail := by rw [hr, ← hx]; simp
      cases hsc : H.end .array (nm :: names []) (K.inside (K.array st.baton)) with
      | stop b' f =>
        simp only [List.map_nil] at hsc
        rw [hsc] at hdoc
        obtain ⟨st', e', h1, h2, h3⟩ := hdoc.stop_run
        refine ⟨st', e', h1, h2, ?_⟩
        intro n hn
        simp only [List.length_append, List.length_cons] at hn
        rw [show n = (n - 1) + 1 by omega, mainLoop_go (by simp [hopt]), h3 _ (by omega)]
      | done b' =>
        simp only [List.map_nil] at hsc
        rw [hsc] at hdoc
        obtain ⟨st', k, h1, ⟨hi2, hm2, hst2, hj2⟩, hk, h3⟩ := hdoc.done_run
        have hr2 : st'.rj.rest = Feed.text fs tail := by
          rw [hm2.rest, hr]; exact List.drop_left' (by simp)
        have ih' := ih false true st' hi2 (fun _ h0 => absurd h0 (Nat.ne_of_gt hj2)) hst2 hm hr2
        simp only [Out.bind]
        rw [h1] at ih'
        cases hds : Feed.scan H K R (nm :: names []) fs b' with
        | done b'' =>
          rw [hds] at ih'
          obtain ⟨st2, pr', k', h4, h5, h6, h7, h8, h9, ⟨m, hm3, h10⟩, h11⟩ := ih'
          refine ⟨st2, pr', k' + k + 1, ?_, h5, h6, h7, h8, h9, ⟨b.length + bx.length + m, ?_, ?_⟩, ?_⟩
          · simp only [List.length_append, List.length_cons]; omega
          · simp only [List.length_append]; omega
          · exact hm2.trans h10
          · intro n
            rw [show n + (k' + k + 1) = (n + k' + k) + 1 by omega, mainLoop_go (by simp [hopt]), h3 _ (by omega),
              show n + k' + k - k = n + k' by omega, h11]
        | stop b'' f =>
          rw [hds] at ih'
          obtain ⟨st2, e', h4, h5, h6⟩ := ih'
          refine ⟨st2, e', h4, h5, ?_⟩
          intro n hn
          simp only [List.length_append, List.length_cons] at hn
          rw [show n = (n - 1) + 1 by omega, mainLoop_go (by simp [hopt]), h3 _ (by omega), h6 _ (by omega)]

/-- `scan` of a feed. -/
theorem scan_feed (hI : Implements cb H (Inv M L F) (rules M L)) (hopt : opt.stopEarly = false)
    (hL : ∀ u ∈ opt.sseTokens, u.length ≤ L) (tail : Bytes) (l : List (Pos × Bytes)) {K : Marks β}
    (hq : Silent cb .atom (nameTop :: names l) K.token) {boxes : Prop}
    (hbox : boxes → l = [] ∧ R.Fits [nameTop] nameArray ∧ Silent cb .array [nameTop] K.array ∧
      Silent cb .atom [nameArray, nameTop] K.inside) (fs : Feed) (st : St β) (hi : Inv M L F st.rj) (hrd : Ready st.rj)
    (hst : Holds st.pool R l) (hfit : R.Fits (names l) nameTop)
    (hm : Feed.Meets (rules M L) opt.sseTokens M.loose boxes tail false fs) (ht : Spaces tail) (hr : st.rj.rest = Feed.text fs tail) :
    match Feed.scan H K R (nameTop :: names l) fs st.baton with
    | .done b => ∃ st', st'.baton = b ∧ AtEnd M L F R ((.top, nameTop) :: l) st.rj st.rj.rest.length st' ∧
        ∀ n, fs.length + st.rj.rest.length + 1 ≤ n → scan n F cb opt st = (st', .ok ())
    | .stop b f => ∃ st' e, st'.baton = b ∧ Faults f st' e ∧
        ∀ n, fs.length + st.rj.rest.length + 1 ≤ n → scan n F cb opt st = (st', .err e) := by
  obtain ⟨p', r, e, hp⟩ := hst.push .top nameTop hfit
  have := feed_run (R := R) hI hopt hL tail nameTop l hq hbox fs false false { st with pool := p' } hi (fun _ => hrd) hp hm hr
  rw [hr]
  unfold scan
  rw [e]
  simp only at this ⊢
  cases hds : Feed.scan H K R (nameTop :: names l) fs st.baton with
  | stop b f => rw [hds] at this; exact this
  | done b =>
    rw [hds] at this
    obtain ⟨st2, pr', k', h4, h5, h6, h7, h8, h9, ⟨m, hm3, h10⟩, h11⟩ := this
    obtain ⟨s1, x, s2, e1, e2, hi2, hm2⟩ := h6.atEnd (by rw [h9]; exact ht)
    rw [h9] at hm2
    refine ⟨{ st2 with rj := s2 }, h5, ⟨hi2, ?_, h8⟩, ?_⟩
    · have := h10.trans hm2
      rw [hm3] at this
      exact this
    · intro n hn
      rw [show n = (n - k' - 1) + 1 + k' by omega, h11, mainLoop_go (by simp [hopt]), turn_end e1 e2]
      rfl

end Verif.Scan
