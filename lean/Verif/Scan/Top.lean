import Verif.RJiter.PropsErr
import Verif.Scan.Run

/-!
# Streams of documents: `scan` as a whole
-/

namespace Verif.Scan

open Verif.RJiter
open Verif.U8Pool (Pool PRes PoolError)

variable {β : Type} {F : Nat} {cb : Callbacks β} {opt : Options} {H : Handler β} {M : Mode} {L : Nat} {R : Room}

/-- `peek` behind the last document, and `finish`. -/
theorem Inv.atEnd {s : RJ} (h : Inv M L F s) (hw : Spaces s.rest) :
    ∃ s1 x s2, s.peek F = (s1, .err ⟨.json .eofWhileParsingValue, x⟩) ∧ s1.finish F = (s2, .ok ()) ∧ Inv M L F s2 ∧
      s.Moved s2 s.rest.length := by
  have hl : 0 < s.b.buf.length := by have := h.eight; omega
  obtain ⟨s1, x, e⟩ := C16_peek_end s F h.sync hl h.clean h.fuel hw
  have hfuel := h.fuel
  unfold enoughFuel at hfuel
  rcases RJ.plain_error peek_stillWs peek_stillNil s F h.sync hl (by omega) e with ⟨kd, y, h1, _⟩ | ⟨ws, r, _, _, h1, _, h2, _, _, hm⟩
  · simp at h1
  · have hr : r = [] := by
      cases r with
      | nil => rfl
      | cons c r =>
        have hc := h2 c rfl
        have := (ws_iff _).2 hw c (by rw [h1]; simp)
        rw [Jiter.isAscii_of_isWs this] at hc
        simp at hc
    subst hr
    rw [List.append_nil] at h1
    rw [← h1] at hm
    have hr1 : s1.rest = [] := by rw [hm.rest]; simp
    have hi1 : Inv M L F s1 := h.moved hm (by
      have := Op.run_reach .peek F s
      simp only [Op.run, e] at this
      exact this)
    obtain ⟨s2, e2, hm2⟩ := (C15_finish s1 F hi1.sync (by have := hi1.eight; omega) hi1.clean hi1.fuel).1
      (by rw [hr1]; intro c hc; simp at hc)
    rw [hr1] at hm2
    refine ⟨s1, x, s2, e, e2, hi1.moved hm2 (by
      have := Op.run_reach .finish F s1
      simp only [Op.run, e2] at this
      exact this), hm.trans hm2⟩

/-- The state behind the whole input. -/
def AtEnd (M : Mode) (L F : Nat) (R : Room) (l : List (Pos × Bytes)) (s : RJ) (n : Nat) (st : St β) : Prop :=
  Inv M L F st.rj ∧ s.Moved st.rj n ∧ Holds st.pool R l

theorem mainLoop_go {n : Nat} {pr : Bool} {st : St β} (h : ¬ (pr = true ∧ opt.stopEarly = true)) :
    mainLoop F cb opt (n + 1) pr .top st = resume F cb opt n (turn F cb opt .top st) := by
  rw [mainLoop, if_neg (by simpa using h)]
  rcases turn F cb opt .top st with ⟨st', p' | r⟩ <;> rfl

theorem turn_top {st : St β} {s' : RJ} {c : Byte} (h : st.rj.peek F = (s', .ok c)) :
    turn F cb opt .top st = onValue F cb opt c .top { st with rj := s' } := by
  unfold turn
  rw [if_neg (by decide), if_neg (by decide), h]
  rfl

theorem turn_end {st : St β} {s1 s2 : RJ} {x : Nat} (h : st.rj.peek F = (s1, .err ⟨.json .eofWhileParsingValue, x⟩))
    (h2 : s1.finish F = (s2, .ok ())) : turn F cb opt .top st = ({ st with rj := s2 }, .done (.ok ())) := by
  unfold turn
  rw [if_neg (by decide), if_neg (by decide), h]
  show (if (ErrType.json .eofWhileParsingValue) = .json .eofWhileParsingValue then _ else _) = _
  rw [if_pos rfl, if_neg (by decide)]
  show (({ st with rj := (s1.finish F).1 } : St β), Step.done (.ofRes (s1.finish F).2)) = _
  rw [h2]
  rfl

/-- The next document at the top level. -/
theorem doc_run (hI : Implements cb H (Inv M L F) (rules M L)) {st : St β} {b nm t : Bytes} {v : Val} {l : List (Pos × Bytes)}
    (hi : Inv M L F st.rj) (hst : Holds st.pool R ((.top, nm) :: l)) (hb : Spaces b) (hv : v.Meets (rules M L))
    (hh : v.HeadMeets (rules M L) b) (he : Ends v t) (hrd : Ready st.rj) (hr : st.rj.rest = b ++ (v.text ++ t)) :
    Reaches F cb opt (turn F cb opt .top st) v.text.length (v.scan H R (nm :: names l) st.baton) .top
      (Behind M L F R ((.top, nm) :: l) st.rj (b.length + v.text.length)) := by
  obtain ⟨s', c, r, e, hc, hi', hm, hsafe⟩ := hi.peekValue hv hb hh (.inr (.inr hrd)) hr
  rw [turn_top e]
  have := valRuns (F := F) (cb := cb) (opt := opt) (R := R) hI v hv { st with rj := s' } .top nm l t c r hi' hst hc
    (moved_rest hm hr) he hsafe
  exact this.leads (.refl _) (Behind.from hm rfl) (Nat.le_of_eq (Nat.zero_add _))

theorem Reaches.stop_run {x : St β × Step} {m : Nat} {b : β} {f : Fault} {pos : Pos} {good : St β → Prop}
    (h : Reaches F cb opt x m (.stop b f) pos good) :
    ∃ st e, st.baton = b ∧ Faults f st e ∧ ∀ n, m ≤ n → resume F cb opt n x = (st, .err e) := by
  obtain ⟨st, e, k, hk, hl, h1, h2⟩ := h
  refine ⟨st, e, h1, h2, fun n hn => ?_⟩
  rw [show n = (n - k) + k by omega, hl]
  rfl

theorem Reaches.done_run {x : St β × Step} {m : Nat} {b : β} {pos : Pos} {good : St β → Prop}
    (h : Reaches F cb opt x m (.done b) pos good) :
    ∃ st k, st.baton = b ∧ good st ∧ k ≤ m ∧ ∀ n, k ≤ n → resume F cb opt n x = mainLoop F cb opt (n - k) true pos st := by
  obtain ⟨st, k, hk, hl, h1, h2⟩ := h
  refine ⟨st, k, h2, h1, hk, fun n hn => ?_⟩
  rw [show n = (n - k) + k by omega, hl]
  simp [resume]

theorem docs_run (hI : Implements cb H (Inv M L F) (rules M L)) (hopt : opt.stopEarly = false) (tail nm : Bytes) (l : List (Pos × Bytes)) :
    ∀ (ds : Docs) (pr : Bool) (st : St β), Inv M L F st.rj → Ready st.rj → Holds st.pool R ((.top, nm) :: l) →
      Docs.Meets (rules M L) ds tail → st.rj.rest = Docs.text ds tail →
      match Docs.scan H R (nm :: names l) ds st.baton with
      | .done b => ∃ st', st'.baton = b ∧ AtEnd M L F R ((.top, nm) :: l) st.rj (Docs.text ds tail).length st' ∧
          ∀ n, ds.length + (Docs.text ds tail).length + 1 ≤ n → mainLoop F cb opt n pr .top st = (st', .ok ())
      | .stop b f => ∃ st' e, st'.baton = b ∧ Faults f st' e ∧
          ∀ n, ds.length + (Docs.text ds tail).length + 1 ≤ n → mainLoop F cb opt n pr .top st = (st', .err e) := by
  intro ds
  induction ds with
  | nil =>
    intro pr st hi hrd hst hm hr
    simp only [Docs.scan, Docs.text] at *
    obtain ⟨s1, x, s2, e1, e2, hi2, hm2⟩ := hi.atEnd (by rw [hr]; exact hm)
    rw [hr] at hm2
    refine ⟨{ st with rj := s2 }, rfl, ⟨hi2, hm2, hst⟩, ?_⟩
    intro n hn
    rw [show n = (n - 1) + 1 by omega, mainLoop_go (by simp [hopt]), turn_end e1 e2]
    rfl
  | cons d ds ih =>
    rcases d with ⟨b, v⟩
    intro pr st hi hrd hst hm hr
    obtain ⟨hb, hv, hh, he, hm⟩ := hm
    have hdoc := doc_run (opt := opt) (R := R) hI hi hst hb hv hh he hrd hr
    simp only [Docs.scan]
    have hlen : (Docs.text ((b, v) :: ds) tail).length = b.length + v.text.length + (Docs.text ds tail).length := by
      simp [Docs.text]; omega
    rw [hlen]
    cases hsc : v.scan H R (nm :: names l) st.baton with
    | stop b' f =>
      rw [hsc] at hdoc
      obtain ⟨st', e, h1, h2, h3⟩ := hdoc.stop_run
      refine ⟨st', e, h1, h2, ?_⟩
      intro n hn
      rw [show n = (n - 1) + 1 by omega, mainLoop_go (by simp [hopt]), h3 _ (by omega)]
    | done b' =>
      rw [hsc] at hdoc
      obtain ⟨st', k, h1, ⟨hi', hm', hst', hj'⟩, hk, h3⟩ := hdoc.done_run
      have hr' : st'.rj.rest = Docs.text ds tail := by
        rw [hm'.rest, hr]
        simp only [Docs.text]
        rw [← List.append_assoc, ← List.length_append, List.drop_left]
      have ih' := ih true st' hi' (fun h0 => absurd h0 (Nat.ne_of_gt hj')) hst' hm hr'
      simp only [Out.bind]
      rw [h1] at ih'
      cases hds : Docs.scan H R (nm :: names l) ds b' with
      | done b'' =>
        rw [hds] at ih'
        obtain ⟨st'', h4, h5, h6⟩ := ih'
        refine ⟨st'', h4, ⟨h5.1, hm'.trans h5.2.1, h5.2.2⟩, ?_⟩
        intro n hn
        simp only [List.length_cons] at hn
        rw [show n = (n - 1) + 1 by omega, mainLoop_go (by simp [hopt]), h3 _ (by omega), h6 _ (by omega)]
      | stop b'' f =>
        rw [hds] at ih'
        obtain ⟨st'', e, h4, h5, h6⟩ := ih'
        refine ⟨st'', e, h4, h5, ?_⟩
        intro n hn
        simp only [List.length_cons] at hn
        rw [show n = (n - 1) + 1 by omega, mainLoop_go (by simp [hopt]), h3 _ (by omega), h6 _ (by omega)]

/-- `scan` of a stream of documents. -/
theorem scan_docs (hI : Implements cb H (Inv M L F) (rules M L)) (hopt : opt.stopEarly = false) (tail : Bytes) (l : List (Pos × Bytes))
    (ds : Docs) (st : St β) (hi : Inv M L F st.rj) (hrd : Ready st.rj) (hst : Holds st.pool R l) (hfit : R.Fits (names l) nameTop)
    (hm : Docs.Meets (rules M L) ds tail) (hr : st.rj.rest = Docs.text ds tail) :
    match Docs.scan H R (nameTop :: names l) ds st.baton with
    | .done b => ∃ st', st'.baton = b ∧ AtEnd M L F R ((.top, nameTop) :: l) st.rj st.rj.rest.length st' ∧
        ∀ n, ds.length + st.rj.rest.length + 1 ≤ n → scan n F cb opt st = (st', .ok ())
    | .stop b f => ∃ st' e, st'.baton = b ∧ Faults f st' e ∧
        ∀ n, ds.length + st.rj.rest.length + 1 ≤ n → scan n F cb opt st = (st', .err e) := by
  obtain ⟨p', r, e, hp⟩ := hst.push .top nameTop hfit
  have := docs_run (R := R) hI hopt tail nameTop l ds false { st with pool := p' } hi hrd hp hm hr
  rw [hr]
  unfold scan
  rw [e]
  exact this

/-- `scan` with `stop_early` in front of a document. -/
theorem scan_first (hI : Implements cb H (Inv M L F) (rules M L)) (hopt : opt.stopEarly = true) (b t : Bytes) (v : Val)
    (l : List (Pos × Bytes)) (st : St β) (hi : Inv M L F st.rj) (hrd : Ready st.rj) (hst : Holds st.pool R l) (hfit : R.Fits (names l) nameTop)
    (hb : Spaces b) (hv : v.Meets (rules M L)) (hh : v.HeadMeets (rules M L) b) (he : Ends v t)
    (hr : st.rj.rest = b ++ (v.text ++ t)) :
    match v.scan H R (nameTop :: names l) st.baton with
    | .done b' => ∃ st', st'.baton = b' ∧ Behind M L F R ((.top, nameTop) :: l) st.rj (b.length + v.text.length) st' ∧
        ∀ n, v.text.length + 2 ≤ n → scan n F cb opt st = (st', .ok ())
    | .stop b' f => ∃ st' e, st'.baton = b' ∧ Faults f st' e ∧
        ∀ n, v.text.length + 2 ≤ n → scan n F cb opt st = (st', .err e) := by
  obtain ⟨p', r, e, hp⟩ := hst.push .top nameTop hfit
  have hdoc := doc_run (opt := opt) (R := R) hI (st := { st with pool := p' }) hi hp hb hv hh he hrd hr
  unfold scan
  rw [e]
  simp only
  cases hsc : v.scan H R (nameTop :: names l) st.baton with
  | stop b' f =>
    rw [hsc] at hdoc
    obtain ⟨st', e, h1, h2, h3⟩ := hdoc.stop_run
    refine ⟨st', e, h1, h2, ?_⟩
    intro n hn
    rw [show n = (n - 1) + 1 by omega, mainLoop_go (by simp), h3 _ (by omega)]
  | done b' =>
    rw [hsc] at hdoc
    obtain ⟨st', k, h1, h2, hk, h3⟩ := hdoc.done_run
    refine ⟨st', h1, h2, ?_⟩
    intro n hn
    rw [show n = (n - 1) + 1 by omega, mainLoop_go (by simp), h3 _ (by omega), show n - 1 - k = (n - 2 - k) + 1 by omega,
      mainLoop, if_pos ⟨rfl, hopt, rfl⟩]

end Verif.Scan
