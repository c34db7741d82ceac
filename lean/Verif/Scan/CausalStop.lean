import Verif.Scan.CausalProps
import Verif.RJiter.Accept

/-!
# Property C110 with `stop_early`: what follows a value has no influence on it

With `stop_early`, an `Ok` is final: with anything behind the input, `scan` returns `Ok` too, has done the same to the client, and leaves the parser
in the same state, with all of the rest still to be read.
-/

namespace Verif.Scan

open Verif.RJiter RJ Jiter
open Verif.U8Pool (Pool)

variable {β : Type} {cb : Callbacks β} {R : Reader} {F : Nat} {Le : β → β → Prop} {opt : Options}

theorem blank_of_ws {l : Bytes} (h : Ws l) : Blank l := by
  intro c hc
  have := h c hc
  left
  simp only [isWs, Bool.or_eq_true, beq_iff_eq] at this
  rcases this with ((h | h) | h) | h
  · exact .inl h
  · exact .inr (.inr (.inr h))
  · exact .inr (.inl h)
  · exact .inr (.inr (.inl h))

theorem skipStep_not_ok (hno : opt.sseTokens = []) (c : Byte) (pos : Pos) (rj : RJ) (b : β) (pool : Pool) :
    (skipStep F opt c pos rj b pool).2 ≠ .done (.ok ()) := by
  unfold skipStep
  rcases skipBasic F c rj with ⟨s', _ | e | _ | _⟩
  · simp
  · simp only [hno, skipSse]
    split <;> simp
  · simp
  · simp

theorem cast_not_ok {α : Type} (r : SRes Empty) (v : α) : (r.cast : SRes α) ≠ .ok v := fun h => no_cast ⟨v, h⟩

theorem onValue_not_ok (hno : opt.sseTokens = []) (c : Byte) (pos : Pos) (st : St β) : (onValue F cb opt c pos st).2 ≠ .done (.ok ()) := by
  rw [onValue_eq]
  split
  · simp
  split
  · simp
  · rcases callAction cb .atom st with ⟨st2, _ | _ | r⟩
    · exact skipStep_not_ok hno _ _ _ _ _
    · simp
    · intro h
      injection h with h
      exact cast_not_ok r () h

/-- `scan` ends well only between values, if there is nothing more. -/
theorem turn_ok_blank (hno : opt.sseTokens = []) (pos : Pos) {st : St β} (hu : Usable F st.rj) (h : (turn F cb opt pos st).2 = .done (.ok ())) :
    pos = .top ∧ Blank st.rj.rest := by
  unfold turn at h
  split at h
  · rcases hx : handleObject F cb pos st with ⟨st2, _ | _ | _ | _⟩ <;> rw [hx] at h <;> simp at h
  split at h
  · rcases hx : handleArray F cb pos st with ⟨st2, ⟨_ | c, p⟩ | _ | _ | _⟩ <;> rw [hx] at h
    · simp at h
    · simp only at h
      split at h
      · exact absurd h (onValue_not_ok hno _ _ _)
      · simp at h
    all_goals simp at h
  · have hl : 2 ≤ st.rj.b.buf.length := by have := hu.len; omega
    rcases hx : st.rj.peek F with ⟨s', c | e | _ | _⟩ <;> rw [hx] at h <;> simp only at h
    · exact absurd h (onValue_not_ok hno _ _ _)
    · split at h
      · rename_i he
        split at h
        · simp at h
        · rename_i hp
          have hp : pos = .top := by
            by_cases c : pos = .top
            · exact c
            · exact absurd c hp
          refine ⟨hp, ?_⟩
          obtain ⟨ws, e1, e2, n, hm⟩ := peek_end hu.sync hl hu.fuel hx (by rw [he]; nofun)
          have hu' := hu.moved hm
          have hfu := hu'.fuel
          unfold enoughFuel at hfu
          rcases finishLoop_spec F s' hu'.sync (by have := hu'.len; omega) (by split <;> omega) with
            ⟨s2, f1, f2, -⟩ | ⟨s2, x, ws', c, t, f1, -⟩ | f
          · rw [e1]
            intro c hc
            rcases List.mem_append.mp hc with hc | hc
            · exact e2 c hc
            · exact blank_of_ws f2 c hc
          · simp [RJ.finish, f1, SRes.ofRes] at h
          · obtain ⟨s2, kd, x, f1, -⟩ := f
            simp [RJ.finish, f1, SRes.ofRes] at h
      · simp at h
    · simp at h
    · simp at h

theorem mainLoop_stops (hC : Adds cb R F Le) (hno : opt.sseTokens = []) (hse : opt.stopEarly = true) : ∀ (n : Nat) (b : Bool) (pos : Pos) (st : St β),
    Primed F st.rj → b = true ∨ ¬ Blank st.rj.rest → (mainLoop F cb opt n b pos st).2 = .ok () →
    mainLoop F cb opt n b pos (st.more R) = ((mainLoop F cb opt n b pos st).1.more R, .ok ()) := by
  intro n
  induction n with
  | zero => intro b pos st _ _ h; simp [mainLoop] at h
  | succ n ih =>
    intro b pos st hr hb h
    unfold mainLoop at h ⊢
    by_cases c1 : b = true ∧ opt.stopEarly = true ∧ pos = .top
    · rw [if_pos c1, if_pos c1]
    · rw [if_neg c1] at h ⊢
      rw [if_neg c1]
      have hend := turn_ok_blank (cb := cb) hno pos hr.usable
      rcases turn_apart hC hno pos hr with ⟨h1, h2⟩ | ⟨h1, -⟩
      · rw [h1]
        revert h2 h
        rcases turn F cb opt pos st with ⟨st2, p | r⟩ <;> intro h h2
        · exact ih true p st2 (h2 ⟨_, rfl⟩) (.inl rfl) h
        · simp only at h ⊢
          rw [h]
      · exfalso
        revert h h1 hend
        rcases turn F cb opt pos st with ⟨st2, p | r⟩ <;> intro h hend h1
        · exact h1 ⟨_, rfl⟩
        · simp only at h
          subst h
          obtain ⟨e1, e2⟩ := hend rfl
          rcases hb with hb | hb
          · exact c1 ⟨hb, hse, e1⟩
          · exact hb e2

theorem scan_stops (hC : Adds cb R F Le) (hno : opt.sseTokens = []) (hse : opt.stopEarly = true) (turns : Nat) {st : St β} (hr : Primed F st.rj)
    (hb : ¬ Blank st.rj.rest) (h : (scan turns F cb opt st).2 = .ok ()) :
    scan turns F cb opt (st.more R) = ((scan turns F cb opt st).1.more R, .ok ()) := by
  unfold scan at h ⊢
  rw [show (st.more R).pool = st.pool from rfl]
  revert h
  rcases st.pool.pushAssoc posLayout [Pos.top.byte] nameTop with ⟨p, _ | _ | _⟩ <;> intro h
  · exact mainLoop_stops hC hno hse turns false .top { st with pool := p } hr (.inr hb) h
  · simp at h
  · simp at h

/-- **C110, partial** (callbacks that leave the parser alone, no SSE tokens, an input that does not end with a digit), with `stop_early`: if `scan`
returns `Ok` for an input that is not only white space, then it does so for every longer input, with the same client's state, context stack and
parser; the parser has not taken anything of the continuation from the reader. -/
theorem C110_stop_early_partial (cb : Callbacks β) (ha : Aloof cb) (turns F : Nat) (reader R : Reader) (buf : Bytes) (b : β) (pool : Pool)
    (h8 : 8 ≤ buf.length) (hf : 2 * reader.size + 2 ≤ F) (hd : NoDigit reader) (hb : ¬ Blank reader.pending) (st' : St β)
    (h : scan turns F cb ⟨[], true⟩ ⟨.new reader buf, b, pool⟩ = (st', .ok ())) :
    scan turns F cb ⟨[], true⟩ ⟨.new (reader ++ R) buf, b, pool⟩ = ({ st' with rj := st'.rj.more R }, .ok ()) := by
  have hg : OnlyAdds cb (fun _ _ => True) := ⟨fun _ => trivial, fun _ _ _ _ _ => trivial, fun _ _ _ => trivial, fun _ _ _ _ _ _ _ => trivial,
    fun _ _ _ => trivial, fun _ _ _ _ _ _ => trivial⟩
  have := scan_stops (hg.adds ha R F) (opt := ⟨[], true⟩) rfl rfl turns (st := ⟨.new reader buf, b, pool⟩) (primed_new h8 hf hd) hb (by rw [h])
  rw [h] at this
  exact this

/-- **C110, partial** (as above), for `idtransform`: it has written the same, and the rest is still to be read. -/
theorem C110_idtransform_ok_partial (turns F : Nat) (reader R : Reader) (buf : Bytes) (w : Writer) (pool : Pool) (h8 : 8 ≤ buf.length)
    (hf : 2 * reader.size + 2 ≤ F) (hd : NoDigit reader) (hb : ¬ Blank reader.pending) (s' : RJ) (w' : Writer) (pool' : Pool)
    (h : idtransform turns F (.new reader buf) w pool = ((s', w', pool'), .ok ())) :
    idtransform turns F (.new (reader ++ R) buf) w pool = ((s'.more R, w', pool'), .ok ()) := by
  unfold idtransform at h ⊢
  have hs := scan_stops (idt_adds R F) (opt := ⟨[], true⟩) rfl rfl turns (st := ⟨.new reader buf, .new w, pool⟩) (primed_new h8 hf hd) hb
  rw [show (St.more R ⟨.new reader buf, .new w, pool⟩ : St Idt) = ⟨.new (reader ++ R) buf, .new w, pool⟩ from rfl] at hs
  revert h hs
  rcases scan turns F (Idt.callbacks F) ⟨[], true⟩ ⟨.new reader buf, .new w, pool⟩ with ⟨st1, _ | _ | _ | _⟩ <;> intro h hs
  · rw [hs rfl]
    simp only [Prod.mk.injEq] at h ⊢
    obtain ⟨⟨rfl, rfl, rfl⟩, -⟩ := h
    exact ⟨⟨rfl, rfl, rfl⟩, trivial⟩
  all_goals simp at h

/-- `{"a": [1]}`, and what may follow. -/
example : NoDigit (piece "{\"a\": [1]}".toUTF8.toList) ∧ ¬ Blank (piece "{\"a\": [1]}".toUTF8.toList).pending ∧
    (scan 60 100 watch ⟨[], true⟩ ⟨.new (piece "{\"a\": [1]}".toUTF8.toList) (List.replicate 40 0), [], exPool⟩).2 = .ok () ∧
    (idtransform 60 100 (.new (piece "{\"a\": [1]}".toUTF8.toList) (List.replicate 40 0)) ⟨[], []⟩ exPool).2 = .ok () ∧
    (idtransform 60 100 (.new (piece "{\"a\": [1]}".toUTF8.toList ++ [.fail 3]) (List.replicate 40 0)) ⟨[], []⟩ exPool).2 = .ok () := by
  have hl : (piece "{\"a\": [1]}".toUTF8.toList).pending.getLast? = some 125 := by decide +kernel
  refine ⟨?_, ?_, by decide +kernel, by decide +kernel, by decide +kernel⟩
  · intro c hc
    rw [hl] at hc
    injection hc with hc
    subst hc
    intro h
    exact absurd h.2 (by decide)
  · intro h
    rcases h 125 (List.mem_of_getLast? hl) with h | h
    · revert h; unfold Space; decide
    · exact absurd h (by decide)

/-- **C110, the false part with `stop_early`.** Nothing but white space: `scan` says `Ok` at the end, but not if more can follow. -/
theorem C110_blank : ∃ (reader R : Reader) (buf : Bytes), NoDigit reader ∧ Blank reader.pending ∧ 40 ≤ buf.length ∧
    (scan 40 100 watch ⟨[], true⟩ ⟨.new reader buf, [], exPool⟩).2 = .ok () ∧
    (scan 40 100 watch ⟨[], true⟩ ⟨.new (reader ++ R) buf, [], exPool⟩).2 ≠ .ok () := by
  refine ⟨[], [.fail 3], List.replicate 40 0, nofun, nofun, by decide, by decide +kernel, by decide +kernel⟩

end Verif.Scan
