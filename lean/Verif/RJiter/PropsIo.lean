import Verif.RJiter.Faults

/-!
# Properties C59, C60 of `rjiter`: I/O errors
-/

namespace Verif.RJiter

open Buffer RJ

/-! ## Specification -/

/-- A session: any calls, with their outcomes, whatever they are. -/
inductive Session : RJ → List (Op × Res Unit) → RJ → Prop where
  | nil (s : RJ) : Session s [] s
  | cons {s s' s'' : RJ} {op : Op} {r : Res Unit} {fuel : Nat} {l : List (Op × Res Unit)} (hrun : op.run fuel s = (s', r))
      (h : Session s' l s'') : Session s ((op, r) :: l) s''

/-- The kind of error, if the outcome is an I/O error. -/
def ioKind : Res Unit → Option Nat
  | .err ⟨.io k, _⟩ => some k
  | _ => none

/-- The writer of the call, if it has one, does not fail. -/
def Op.Calm : Op → Prop
  | .writeLongBytes w => w.faults = []
  | .writeLongStr w => w.faults = []
  | _ => True

/-- How many bytes a reader has delivered when it has come from `input` to `r`. -/
def delivered (input r : Reader) : Nat := input.pending.length - r.pending.length

/-! ## C60 -/

theorem Op.run_calm (op : Op) (hop : op.Calm) (fuel : Nat) (s : RJ) : Told s.b (op.run fuel s).1.b (op.run fuel s).2 := by
  have hw : ∀ (k : Kind) (w : Writer), w.faults = [] → Told s.b (handleLong k fuel s w).1.1.b (handleLong k fuel s w).2 := by
    intro k w h0
    have h := handleLong_toldW k fuel s w
    revert h
    rcases (handleLong k fuel s w).2 with _ | ⟨_ | _ | k | _, i⟩ | _ | _
    all_goals intro h
    all_goals first
      | exact h.1
      | (rcases h with h | h
         · exact ⟨h.1, h.2.1⟩
         · rw [h0] at h; simp at h)
  cases op
  case writeLongBytes w => exact hw _ _ hop
  case writeLongStr w => exact hw _ _ hop
  all_goals exact Op.run_told _ rfl _ _

/-- **C60**: the I/O errors that the calls of a session return are, in their order, the failures of the reader that have happened
so far. None is swallowed, none is invented, none is reported twice, and the kind is kept. -/
theorem C60_session (input : Reader) (buf : Bytes) (l : List (Op × Res Unit)) (s : RJ) (h : Session (.new input buf) l s)
    (hc : ∀ x ∈ l, x.1.Calm) : input.faults = l.filterMap (fun x => ioKind x.2) ++ s.b.reader.faults := by
  have key : ∀ s0, Session s0 l s → s0.b.reader.faults = l.filterMap (fun x => ioKind x.2) ++ s.b.reader.faults := by
    intro s0 h0
    clear h
    induction h0 with
    | nil s => rfl
    | @cons s s' s'' op r fuel l hrun _ ih =>
      have h1 := op.run_calm (hc (op, r) List.mem_cons_self) fuel s
      rw [hrun] at h1
      have h2 := ih (fun x hx => hc x (List.mem_cons_of_mem _ hx))
      rw [List.filterMap_cons]
      rcases r with _ | ⟨_ | _ | k | _, i⟩ | _ | _
      all_goals first
        | exact Eq.trans h1 h2
        | (show s.b.reader.faults = k :: _ ++ _
           rw [h1.1, h2]; rfl)
  exact key _ h

/-- The reader of the examples: it delivers `[true`, fails, delivers `,1]`, fails again. -/
def shaky : Reader := [.data 91 [116, 114, 117, 101], .fail 7, .data 44 [49, 93], .fail 9]

example : ∃ s, Session (.new shaky (List.replicate 16 0))
    [(.nextArray, .ok ()), (.nextBool, .ok ()), (.arrayStep, .err ⟨.io 7, 0⟩), (.arrayStep, .ok ()), (.finish, .err ⟨.json .trailingCharacters, 7⟩),
      (.nextNumberBytes, .ok ()), (.nextArray, .err ⟨.wrongType, 7⟩), (.lookaheadN 3, .err ⟨.io 9, 1⟩)] s ∧ s.b.reader.faults = [] :=
  ⟨_, .cons (fuel := 50) rfl (.cons (fuel := 50) rfl (.cons (fuel := 50) rfl (.cons (fuel := 50) rfl (.cons (fuel := 50) rfl
    (.cons (fuel := 50) rfl (.cons (fuel := 50) rfl (.cons (fuel := 50) rfl (.nil _)))))))), by decide +kernel⟩

/-- A call of `write_long_*` may also return a failure of the writer; then the reader has not failed. -/
theorem C60_write (s : RJ) (w : Writer) (fuel : Nat) :
    ToldW s (s.writeLongBytes fuel w).1.1 w (s.writeLongBytes fuel w).1.2 (s.writeLongBytes fuel w).2 ∧
    ToldW s (s.writeLongStr fuel w).1.1 w (s.writeLongStr fuel w).1.2 (s.writeLongStr fuel w).2 :=
  ⟨handleLong_toldW _ _ _ _, handleLong_toldW _ _ _ _⟩

example : ((RJ.new [.data 34 [97, 98], .fail 7] (List.replicate 8 0)).writeLongBytes 50 ⟨[], [some ⟨9, 0⟩]⟩).2 = .err ⟨.io 9, 0⟩ ∧
    ((RJ.new [.data 34 [97, 98], .fail 7] (List.replicate 8 0)).writeLongBytes 50 ⟨[], []⟩).2 = .err ⟨.io 7, 2⟩ := by decide +kernel

/-! ## C59 -/

theorem Session.calls {s s' : RJ} {l : List (Op × Res Unit)} (h : Session s l s') : Calls s s' := by
  induction h with
  | nil s => exact .nil s
  | @cons s s' s'' op r fuel l hrun _ ih =>
    refine .cons op fuel ?_
    rw [hrun]; exact ih

/-- What the index is: after any session, the index of an I/O error is the number of bytes the reader has delivered, less those that
have left the buffer. -/
theorem io_index (input : Reader) (buf : Bytes) (l : List (Op × Res Unit)) (s s' : RJ) (h : Session (.new input buf) l s)
    (op : Op) (hop : op.Calm) (fuel k i : Nat) (hrun : op.run fuel s = (s', .err ⟨.io k, i⟩)) :
    delivered input s'.b.reader = s'.b.nShifted + i ∧ i ≤ buf.length := by
  have h1 := op.run_calm hop fuel s
  rw [hrun] at h1
  have h2 : Calls (.new input buf) s' := by
    have h3 : Session s [(op, .err ⟨.io k, i⟩)] s' := .cons hrun (.nil _)
    obtain ⟨out, hv⟩ := h.calls.reach.trans h3.calls.reach
    clear hv
    have app : ∀ {a b c : RJ}, Calls a b → Calls b c → Calls a c := by
      intro a b c hab
      induction hab with
      | nil s => exact id
      | cons op fuel _ ih => exact fun hc => .cons op fuel (ih hc)
    exact app h.calls h3.calls
  obtain ⟨out, hv⟩ := h2.reach
  obtain ⟨g1, g2, g3, _, g5, _⟩ := hv.counts (Nat.zero_le _)
  have hl := g5.length_eq
  have hvl := valid_length g1
  simp only [List.length_append, RJ.new, Buffer.new, Buffer.valid, List.take_zero, List.length_nil] at hl g2 g3
  simp only [Buffer.valid] at hvl
  have hi : i = s'.b.nBytes := h1.2
  subst hi
  refine ⟨?_, by omega⟩
  unfold delivered
  omega

/-- **C59, partial**: the index of an I/O error is right as long as nothing has left the buffer, it never points behind the bytes that
were delivered, and it always points into the buffer. Full statement: it is the number of bytes that were delivered; that is false, see
`C59_wrong`. -/
theorem C59_index_partial (input : Reader) (buf : Bytes) (l : List (Op × Res Unit)) (s s' : RJ) (h : Session (.new input buf) l s)
    (op : Op) (hop : op.Calm) (fuel k i : Nat) (hrun : op.run fuel s = (s', .err ⟨.io k, i⟩)) :
    i ≤ delivered input s'.b.reader ∧ i ≤ buf.length ∧ (i = delivered input s'.b.reader ↔ s'.b.nShifted = 0) := by
  have := io_index input buf l s s' h op hop fuel k i hrun
  omega

example : ∃ s s', Session (.new shaky (List.replicate 16 0)) [(.nextArray, .ok ())] s ∧
    Op.run 50 s (.lookaheadN 5) = (s', .err ⟨.io 7, 5⟩) ∧ delivered shaky s'.b.reader = 5 :=
  ⟨_, _, .cons (fuel := 50) rfl (.nil _), rfl, by decide +kernel⟩

/-- **C59 is false**: the reader fails after it has delivered five bytes, `[true`. The call that needs the sixth reports the failure
at index 0. `error_position` cannot convert that index: `index - n_shifted_out` underflows. -/
theorem C59_wrong : ∃ s s', Session (.new shaky (List.replicate 16 0)) [(.nextArray, .ok ()), (.nextBool, .ok ())] s ∧
    Op.run 50 s .arrayStep = (s', .err ⟨.io 7, 0⟩) ∧ delivered shaky s'.b.reader = 5 ∧ s'.errorPosition 0 = none :=
  ⟨_, _, .cons (fuel := 50) rfl (.cons (fuel := 50) rfl (.nil _)), rfl, by decide +kernel, by decide +kernel⟩

end Verif.RJiter
