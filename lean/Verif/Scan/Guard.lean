import Verif.Scan.Sim
import Verif.Scan.Top

/-!
# Callbacks that are described under a condition on the client's state

`Implements` has to describe the callbacks in all states of the client. If it is clear only in states that meet a
condition `K` (no write can fail, say) what they do, and `K` is kept, then that is enough: in other states callbacks
that fail take their place.
-/

namespace Verif.Scan

open Verif.RJiter
open Verif.U8Pool (Pool)

variable {β : Type}

/-- What an action answers, as `Implements` says it: `y` is what the handler does. -/
def Answer (I : RJ → Prop) (s : RJ) (ws : Bytes) (v : Val) (y : β × StreamOp) : (RJ × β) × Acted → Prop
  | ((s', b), .op .none) => y = (b, .none) ∧ I s' ∧ (∃ n, n ≤ ws.length ∧ s.Moved s' n) ∧
      (s'.jidx = 0 → s.jidx = 0 ∧ s'.b.nBytes = s.b.nBytes)
  | ((s', b), .op .valueIsConsumed) => y = (b, .valueIsConsumed) ∧ I s' ∧ s.Moved s' (ws.length + v.text.length) ∧ 0 < s'.jidx
  | ((_, b), .op (.error m)) => y = (b, .error m)
  | _ => False

/-- The same for what a matcher returns. -/
def Answers (I : RJ → Prop) (s : RJ) (ws : Bytes) (v : Val) (y : β × StreamOp) : β × Option (Action β) → Prop
  | (b, none) => y = (b, .none)
  | (b, some act) => Answer I s ws v y (act s b)

/-- The effect of an end callback. -/
def ended : β × Option (EndAction β) → β × Option String
  | (b, none) => (b, none)
  | (b, some act) => act b

/-- `Implements`, in states that meet `K`. -/
structure ImplementsOn (K : β → Prop) (cb : Callbacks β) (H : Handler β) (I : RJ → Prop) (Rs : Rules) : Prop where
  start : ∀ (p : Pseudo) (path : List Bytes) (v : Val) (b : β) (s : RJ) (ws t : Bytes), K b → I s → Starts p v → v.Meets Rs →
    Spaces ws → (p ≠ .none → ws = []) → v.HeadMeets Rs ws ∨ p ≠ .none → s.rest = ws ++ (v.text ++ t) → Ends v t →
    Answers I s ws v (H.start p path v b) (cb.find p ⟨path, path.length⟩ b)
  finish : ∀ (p : Pseudo) (path : List Bytes) (b : β), K b → ended (cb.findEnd p ⟨path, path.length⟩ b) = H.finish p path b

open Classical in
/-- The callbacks, but failing outside `K`. -/
noncomputable def guardCb (K : β → Prop) (cb : Callbacks β) : Callbacks β where
  find p c b := if K b then cb.find p c b else (b, some fun s b => ((s, b), .op (.error "")))
  findEnd p c b := if K b then cb.findEnd p c b else (b, some fun b => (b, some ""))

open Classical in
/-- The handler, but failing outside `K`. -/
noncomputable def guardH (K : β → Prop) (H : Handler β) : Handler β where
  start p path v b := if K b then H.start p path v b else (b, .error "")
  finish p path b := if K b then H.finish p path b else (b, some "")

theorem guardH_start {K : β → Prop} {H : Handler β} {b : β} (h : K b) (p : Pseudo) (path : List Bytes) (v : Val) :
    (guardH K H).start p path v b = H.start p path v b := by simp [guardH, h]

theorem guardH_finish {K : β → Prop} {H : Handler β} {b : β} (h : K b) (p : Pseudo) (path : List Bytes) :
    (guardH K H).finish p path b = H.finish p path b := by simp [guardH, h]

theorem guard_implements {K : β → Prop} {cb : Callbacks β} {H : Handler β} {I : RJ → Prop} {Rs : Rules}
    (h : ImplementsOn K cb H I Rs) : Implements (guardCb K cb) (guardH K H) I Rs := by
  constructor
  · intro p path v b s ws t h1 h2 h3 h4 h5 h6 h7 h8
    by_cases hK : K b
    · have := h.start p path v b s ws t hK h1 h2 h3 h4 h5 h6 h7 h8
      rw [← guardH_start (H := H) hK] at this
      simp only [guardCb, hK, if_true]
      revert this
      rcases cb.find p ⟨path, path.length⟩ b with ⟨b', _ | a⟩
      · exact id
      · simp only [Answers]
        rcases a s b' with ⟨⟨s', b''⟩, (_ | _ | m) | _ | _⟩ <;> exact id
    · simp only [guardCb, guardH, hK, if_false]
  · intro p path b
    by_cases hK : K b
    · have := h.finish p path b hK
      rw [guardH_finish hK]
      simp only [guardCb, hK, if_true]
      revert this
      rcases cb.findEnd p ⟨path, path.length⟩ b with ⟨b', _ | a⟩ <;> exact id
    · simp only [guardCb, guardH, hK, if_false]

theorem guard_sim {K : β → Prop} {cb : Callbacks β} {Q : String → RJ → β → Prop} (h : Keeps cb K Q) :
    Sim cb (guardCb K cb) (fun b g => b = g ∧ K b) (fun _ _ b g => b = g) := by
  constructor
  · rintro p c b _ ⟨rfl, hK⟩
    obtain ⟨h1, h2⟩ := h.find p c b hK
    simp only [guardCb, hK, if_true]
    refine ⟨⟨trivial, h1⟩, ?_⟩
    rcases he : cb.find p c b with ⟨b1, _ | a⟩
    · trivial
    · intro s
      rw [he] at h2
      have h2 := h2 a rfl s
      simp only at h2 ⊢
      refine ⟨rfl, rfl, ?_⟩
      revert h2
      rcases a s b1 with ⟨⟨s1, b2⟩, (_ | _ | m) | _ | _⟩
      · exact fun h => ⟨rfl, h⟩
      · exact fun h => ⟨rfl, h⟩
      · exact fun _ => rfl
      · exact fun h => ⟨rfl, h⟩
      · exact fun h => ⟨rfl, h⟩
  · rintro p c b _ ⟨rfl, hK⟩
    obtain ⟨h1, h2⟩ := h.findEnd p c b hK
    simp only [guardCb, hK, if_true]
    refine ⟨⟨trivial, h1⟩, ?_⟩
    rcases he : cb.findEnd p c b with ⟨b1, _ | a⟩
    · trivial
    · rw [he] at h2
      have h2 := h2 a rfl
      simp only at h2 ⊢
      refine ⟨trivial, ?_⟩
      revert h2
      rcases a b1 with ⟨b2, _ | m⟩
      · exact fun h => ⟨trivial, h⟩
      · exact fun _ _ => trivial

/-- Both go the same way. -/
theorem guard_scan {K : β → Prop} {cb : Callbacks β} {Q : String → RJ → β → Prop} (h : Keeps cb K Q) (turns F : Nat) (opt : Options)
    (st : St β) (hK : K st.baton) : scan turns F (guardCb K cb) opt st = scan turns F cb opt st := by
  obtain ⟨g, e1, e2⟩ := scan_same (guard_sim h) turns F opt st.rj st.baton st.baton st.pool ⟨rfl, hK⟩
  rw [show (⟨st.rj, st.baton, st.pool⟩ : St β) = st from rfl] at e1 e2
  rw [e1]
  rcases hs : scan turns F cb opt st with ⟨⟨rj, b, p⟩, r⟩
  rw [hs] at e2
  have : b = g := by
    rcases e2 with ⟨⟨h, _⟩, _⟩ | ⟨_, _, h⟩ <;> exact h
  rw [this]

/-- `scan` on a stream of documents. -/
theorem scan_docs_on {M : Mode} {L F : Nat} {R : Room} {opt : Options} {K : β → Prop} {cb : Callbacks β} {H : Handler β}
    {Q : String → RJ → β → Prop} (hI : ImplementsOn K cb H (Inv M L F) (rules M L)) (hk : Keeps cb K Q)
    (hopt : opt.stopEarly = false) (tail : Bytes) (l : List (Pos × Bytes))
    (ds : Docs) (st : St β) (hK : K st.baton) (hi : Inv M L F st.rj) (hrd : Ready st.rj) (hst : Holds st.pool R l) (hfit : R.Fits (names l) nameTop)
    (hm : Docs.Meets (rules M L) ds tail) (hr : st.rj.rest = Docs.text ds tail) :
    match Docs.scan (guardH K H) R (nameTop :: names l) ds st.baton with
    | .done b => ∃ st', st'.baton = b ∧ AtEnd M L F R ((.top, nameTop) :: l) st.rj st.rj.rest.length st' ∧
        ∀ n, ds.length + st.rj.rest.length + 1 ≤ n → scan n F cb opt st = (st', .ok ())
    | .stop b f => ∃ st' e, st'.baton = b ∧ Faults f st' e ∧
        ∀ n, ds.length + st.rj.rest.length + 1 ≤ n → scan n F cb opt st = (st', .err e) := by
  have h := scan_docs (guard_implements hI) hopt tail l ds st hi hrd hst hfit hm hr
  revert h
  cases Docs.scan (guardH K H) R (nameTop :: names l) ds st.baton with
  | done b =>
    rintro ⟨st', h1, h2, h3⟩
    exact ⟨st', h1, h2, fun n hn => by rw [← guard_scan hk n F opt st hK]; exact h3 n hn⟩
  | stop b f =>
    rintro ⟨st', e, h1, h2, h3⟩
    exact ⟨st', e, h1, h2, fun n hn => by rw [← guard_scan hk n F opt st hK]; exact h3 n hn⟩

end Verif.Scan
