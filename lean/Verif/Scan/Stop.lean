import Verif.Scan.Props
import Verif.Scan.Sim

/-!
# Property C37: an error from a callback stops the scan

For any input whatever, any callbacks and any options. The callbacks are wrapped so that they keep a record of
the calls and of the errors they report; the wrapping changes nothing else.
-/

namespace Verif.Scan

open Verif.U8Pool (Pool PRes PoolError)
open Verif.RJiter (RJ Err Res JsonErr Writer)

section
variable {β : Type}

/-- An entry of the record: a call of `find_action` or `find_end_action`; an error reported by an action (with the
parser as the action left it) or by an end action. -/
inductive Note where
  | call
  | fail (message : String) (s : Option RJ)
deriving DecidableEq

/-- The same callbacks, with a record. -/
def traced (cb : Callbacks β) : Callbacks (β × List Note) where
  find p c x :=
    match cb.find p c x.1 with
    | (b, none) => ((b, x.2 ++ [.call]), none)
    | (b, some act) => ((b, x.2 ++ [.call]), some fun s y =>
      match act s y.1 with
      | ((s', b'), .op (.error m)) => ((s', (b', y.2 ++ [.fail m (some s')])), .op (.error m))
      | ((s', b'), r) => ((s', (b', y.2)), r))
  findEnd p c x :=
    match cb.findEnd p c x.1 with
    | (b, none) => ((b, x.2 ++ [.call]), none)
    | (b, some act) => ((b, x.2 ++ [.call]), some fun y =>
      match act y.1 with
      | (b', some m) => ((b', y.2 ++ [.fail m none]), some m)
      | (b', none) => ((b', y.2), none))

/-- Without the record. -/
def plain (st : St (β × List Note)) : St β := ⟨st.rj, st.baton.1, st.pool⟩

variable (cb : Callbacks β)

/-- No error yet. -/
def Fresh (log : List Note) : Prop := ∀ n ∈ log, n = .call

/-- The last thing that happened to the callbacks is an error. -/
def Halted (m : String) (s : RJ) (log : List Note) : Prop :=
  ∃ calls o, log = calls ++ [.fail m o] ∧ Fresh calls ∧ ∀ s', o = some s' → s = s'

theorem Fresh.add {log : List Note} (h : Fresh log) : Fresh (log ++ [.call]) := by
  intro n hn
  rcases List.mem_append.mp hn with hn | hn
  · exact h n hn
  · exact List.mem_singleton.mp hn

/-- The wrapped callbacks answer like the others, and stop recording after an error. -/
theorem traced_sim : Sim (traced cb) cb (fun x b => x.1 = b ∧ Fresh x.2) (fun m s x b => x.1 = b ∧ Halted m s x.2) := by
  constructor
  · rintro p c ⟨b, log⟩ g ⟨rfl, h⟩
    simp only [traced]
    rcases cb.find p c b with ⟨b1, _ | a⟩
    · exact ⟨⟨rfl, h.add⟩, trivial⟩
    · refine ⟨⟨rfl, h.add⟩, fun s => ?_⟩
      simp only
      unfold SameAnswer
      rcases a s b1 with ⟨⟨s1, b2⟩, (_ | _ | m) | _ | _⟩
      · exact ⟨rfl, rfl, rfl, h.add⟩
      · exact ⟨rfl, rfl, rfl, h.add⟩
      · exact ⟨rfl, rfl, rfl, _, some s1, rfl, h.add, fun s' e => by injection e⟩
      · exact ⟨rfl, rfl, rfl, h.add⟩
      · exact ⟨rfl, rfl, rfl, h.add⟩
  · rintro p c ⟨b, log⟩ g ⟨rfl, h⟩
    simp only [traced]
    rcases cb.findEnd p c b with ⟨b1, _ | a⟩
    · exact ⟨⟨rfl, h.add⟩, trivial⟩
    · refine ⟨⟨rfl, h.add⟩, ?_⟩
      simp only
      rcases a b1 with ⟨b2, _ | m⟩
      · exact ⟨rfl, rfl, h.add⟩
      · exact ⟨rfl, fun s => ⟨rfl, _, none, rfl, h.add, nofun⟩⟩

/-- **C37.** Whatever the input, the callbacks, the options and the pool: if an action or an end action reports an
error then nothing is called after it, the scan returns that error with the position of the parser, and the parser
is as the action left it. Conversely the scan returns an action error only when a callback reported it. -/
theorem C37_callback_error (turns F : Nat) (opt : Options) (st : St β) :
    let out := scan turns F (traced cb) opt ⟨st.rj, (st.baton, []), st.pool⟩
    let log := out.1.baton.2
    scan turns F cb opt st = (plain out.1, out.2) ∧
    ((∀ n ∈ log, n = .call) ∧ (∀ m i, out.2 ≠ .err (.action m i)) ∨
      ∃ calls m s, log = calls ++ [.fail m s] ∧ (∀ n ∈ calls, n = .call) ∧
        out.2 = .err (.action m out.1.rj.currentIndex) ∧ ∀ s', s = some s' → out.1.rj = s') := by
  obtain ⟨g, e, h⟩ := scan_same (traced_sim cb) turns F opt st.rj (st.baton, []) st.baton st.pool ⟨rfl, nofun⟩
  revert e h
  simp only
  rcases scan turns F (traced cb) opt ⟨st.rj, (st.baton, []), st.pool⟩ with ⟨⟨rj1, b1, pl1⟩, r⟩
  intro e h
  constructor
  · rw [show scan turns F cb opt st = _ from e]
    rcases h with ⟨h, _⟩ | ⟨_, _, h, _⟩
    · simp only [plain]; rw [h.1]
    · simp only [plain]; rw [h]
  · rcases h with ⟨h1, h2⟩ | ⟨m, h1, _, calls, o, h2, h3, h4⟩
    · refine .inl ⟨h1.2, ?_⟩
      rintro m i hr
      exact h2 m i (by rw [show r = _ from hr]; rfl)
    · refine .inr ⟨calls, m, o, h2, h3, ?_, h4⟩
      revert h1
      rcases r with _ | e | _ | _
      · exact nofun
      · intro h
        injection h with h
        simp only [h]
      · exact nofun
      · exact nofun

end

/-- Both cases happen: an end action that fails in the middle of `{"k" : {"x":1}}`, and an action that fails there. -/
example :
    (scan 40 100 (traced failAtEnd) ⟨[], true⟩ ⟨exSt1.rj, ([], []), exPool⟩).2 = .err (.action "stop" 14) ∧
    (scan 40 100 (traced failAtEnd) ⟨[], true⟩ ⟨exSt1.rj, ([], []), exPool⟩).1.baton.2 =
      List.replicate 7 .call ++ [.fail "stop" none] ∧
    (∃ s, (scan 40 100 (traced (observe (fun p _ => p == .atom) (fun s log => ((s, log), .op (.error "no"))))) ⟨[], true⟩
      ⟨exSt1.rj, ([], []), exPool⟩).1.baton.2 = List.replicate 5 .call ++ [.fail "no" (some s)]) ∧
    (scan 40 100 (traced watch) ⟨[], true⟩ ⟨exSt1.rj, ([], []), exPool⟩).1.baton.2 = List.replicate 9 .call :=
  ⟨by decide +kernel, by decide +kernel,
    ⟨(scan 40 100 (observe (fun p _ => p == .atom) (fun s log => ((s, log), .op (.error "no")))) ⟨[], true⟩ exSt1).1.rj,
      by decide +kernel⟩, by decide +kernel⟩

end Verif.Scan
