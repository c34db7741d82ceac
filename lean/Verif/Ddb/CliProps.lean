import Verif.Ddb.Cli
import Verif.Ddb.Faults

/-!
# What the exit status of the command line tool says about its output (properties C75, C76)
-/

namespace Verif.Ddb

open Verif.RJiter

/-- The channel accepts every `write`, at least in part. -/
def Chan.Sound (c : Chan) : Prop := ∀ p ∈ c.plan, ∃ n, p = Except.ok n

theorem drain_spec (fs : List (Option Nat)) : ∀ (plan : List (Except Nat Nat)) (out bs : Bytes),
    (∃ pre, bs = pre ++ (drain fs plan out bs).2.1 ∧ (drain fs plan out bs).1.out = out ++ pre) ∧
    ((drain fs plan out bs).2.2 = none → (drain fs plan out bs).2.1 = []) ∧
    ((∀ p ∈ plan, ∃ n, p = Except.ok n) → (drain fs plan out bs).2.2 = none ∧ (drain fs plan out bs).1.Sound)
  | [], out, bs => ⟨⟨bs, by simp [drain], rfl⟩, fun _ => rfl, fun _ => ⟨rfl, fun _ h => nomatch h⟩⟩
  | p :: plan, out, bs => by
    unfold drain
    by_cases hb : bs = []
    · rw [if_pos hb]
      exact ⟨⟨[], by simp [hb], by simp⟩, fun _ => rfl, fun h => ⟨rfl, h⟩⟩
    · rw [if_neg hb]
      rcases p with k | n
      · exact ⟨⟨[], by simp, by simp⟩, nofun, fun h => by obtain ⟨_, h⟩ := h _ List.mem_cons_self; cases h⟩
      · obtain ⟨⟨pre, h1, h2⟩, h3, h4⟩ := drain_spec fs plan (out ++ bs.take (n + 1)) (bs.drop (n + 1))
        refine ⟨⟨bs.take (n + 1) ++ pre, ?_, ?_⟩, h3, fun h => h4 fun q hq => h q (List.mem_cons_of_mem _ hq)⟩
        · rw [List.append_assoc, ← h1, List.take_append_drop]
        · rw [h2, List.append_assoc]

theorem direct_spec (fs : List (Option Nat)) : ∀ (plan : List (Except Nat Nat)) (out bs : Bytes),
    ((direct fs plan out bs).1.chan.out ++ (direct fs plan out bs).1.held =
      out ++ (match (direct fs plan out bs).2 with | none => bs | some (_, left) => bs.take (bs.length - left))) ∧
    (direct fs plan out bs).1.held.length < capacity ∧
    (∀ k left, (direct fs plan out bs).2 = some (k, left) → left ≤ bs.length) ∧
    ((∀ p ∈ plan, ∃ n, p = Except.ok n) → (direct fs plan out bs).2 = none ∧ (direct fs plan out bs).1.chan.Sound)
  | [], out, bs => by
    unfold direct
    by_cases hb : bs.length < capacity
    · rw [if_pos hb]
      exact ⟨rfl, hb, nofun, fun _ => ⟨rfl, fun _ h => nomatch h⟩⟩
    · rw [if_neg hb]
      exact ⟨by simp, by simp [capacity], nofun, fun _ => ⟨rfl, fun _ h => nomatch h⟩⟩
  | p :: plan, out, bs => by
    unfold direct
    by_cases hb : bs.length < capacity
    · rw [if_pos hb]
      exact ⟨rfl, hb, nofun, fun h => ⟨rfl, h⟩⟩
    · rw [if_neg hb]
      rcases p with k | n
      · refine ⟨by simp, by simp [capacity], fun k left h => ?_, fun h => by obtain ⟨_, h⟩ := h _ List.mem_cons_self; cases h⟩
        injection h with h
        injection h with _ h
        exact Nat.le_of_eq h.symm
      · obtain ⟨h1, h2, h3, h4⟩ := direct_spec fs plan (out ++ bs.take (n + 1)) (bs.drop (n + 1))
        refine ⟨?_, h2, fun k left h => ?_, fun h => h4 fun q hq => h q (List.mem_cons_of_mem _ hq)⟩
        · simp only
          rw [h1]
          revert h3
          rcases (direct fs plan (out ++ bs.take (n + 1)) (bs.drop (n + 1))).2 with _ | ⟨k, left⟩
          · intro _
            simp only
            rw [List.append_assoc, List.take_append_drop]
          · intro h3
            simp only
            have h3 := h3 k left rfl
            rw [List.length_drop] at h3 ⊢
            rw [List.append_assoc]
            congr 1
            have hle : n + 1 ≤ bs.length - left ∨ left = 0 := by omega
            rcases hle with hle | hle
            · rw [← List.take_add]
              congr 1
              omega
            · subst hle
              rw [Nat.sub_zero, Nat.sub_zero, List.take_length, ← List.length_drop, List.take_length, List.take_append_drop]
        · have := h3 k left h
          rw [List.length_drop] at this
          omega

theorem Chan.writeAll_spec (c : Chan) (bs : Bytes) :
    (c.writeAll bs).1.out = c.out ++ accepted bs (c.writeAll bs).2 ∧ (c.Sound → (c.writeAll bs).2 = none ∧ (c.writeAll bs).1.Sound) := by
  obtain ⟨⟨pre, h1, h2⟩, h3, h4⟩ := drain_spec c.flushes c.plan c.out bs
  unfold Chan.writeAll
  revert h1 h2 h3 h4
  rcases drain c.flushes c.plan c.out bs with ⟨c1, rest, _ | k⟩ <;> intro h1 h2 h3 h4
  · simp only at h1 h2 h3 h4
    rw [h3 trivial, List.append_nil] at h1
    exact ⟨by rw [h2, h1]; rfl, fun hs => ⟨rfl, (h4 hs).2⟩⟩
  · simp only at h1 h2
    refine ⟨?_, fun hs => nomatch (h4 hs).1⟩
    rw [h2]
    simp only [accepted]
    rw [h1, List.length_append, Nat.add_sub_cancel, List.take_left]

theorem BufW.flushBuf_spec (b : BufW) :
    b.flushBuf.1.chan.out ++ b.flushBuf.1.held = b.chan.out ++ b.held ∧ b.flushBuf.1.held.length ≤ b.held.length ∧
    (b.flushBuf.2 = none → b.flushBuf.1.held = []) ∧ (b.chan.Sound → b.flushBuf.2 = none ∧ b.flushBuf.1.chan.Sound) := by
  obtain ⟨⟨pre, h1, h2⟩, h3, h4⟩ := drain_spec b.chan.flushes b.chan.plan b.chan.out b.held
  unfold BufW.flushBuf
  revert h1 h2 h3 h4
  rcases drain b.chan.flushes b.chan.plan b.chan.out b.held with ⟨c1, rest, r⟩ <;> intro h1 h2 h3 h4
  simp only at h1 h2 h3 h4 ⊢
  refine ⟨by rw [h2, h1, List.append_assoc], ?_, h3, h4⟩
  rw [h1, List.length_append]
  omega

theorem BufW.writeAll_spec (b : BufW) (bs : Bytes) (hb : b.held.length ≤ capacity) :
    (b.writeAll bs).1.chan.out ++ (b.writeAll bs).1.held = b.chan.out ++ b.held ++ accepted bs (b.writeAll bs).2 ∧
    (b.writeAll bs).1.held.length ≤ capacity ∧ (b.chan.Sound → (b.writeAll bs).2 = none ∧ (b.writeAll bs).1.chan.Sound) := by
  unfold BufW.writeAll
  by_cases h : b.held.length + bs.length < capacity ∨ (b.held.length + bs.length = capacity ∧ bs.length < capacity)
  · rw [if_pos h]
    refine ⟨by simp [accepted], ?_, fun hs => ⟨rfl, hs⟩⟩
    simp only [List.length_append]
    omega
  · rw [if_neg h]
    obtain ⟨h1, h2, h3, h4⟩ := b.flushBuf_spec
    revert h1 h2 h3 h4
    rcases b.flushBuf with ⟨b1, _ | k⟩ <;> intro h1 h2 h3 h4
    · simp only at h1 h2 h3 h4 ⊢
      rw [h3 trivial, List.append_nil] at h1
      obtain ⟨h5, h6, h7, h8⟩ := direct_spec b1.chan.flushes b1.chan.plan b1.chan.out bs
      revert h5 h6 h7 h8
      rcases direct b1.chan.flushes b1.chan.plan b1.chan.out bs with ⟨b2, _ | ⟨k, left⟩⟩ <;> intro h5 h6 h7 h8
      · exact ⟨by rw [← h1]; exact h5, Nat.le_of_lt h6, fun hs => ⟨rfl, (h8 (h4 hs).2).2⟩⟩
      · exact ⟨by rw [← h1]; exact h5, Nat.le_of_lt h6, fun hs => nomatch (h8 (h4 hs).2).1⟩
    · simp only at h1 h2
      refine ⟨by simp [accepted, h1], by simp only; omega, fun hs => nomatch (h4 hs).1⟩

theorem feed_chan : ∀ (ws : List Bytes) (c : Chan),
    (feed Chan.writeAll c ws).1.out = c.out ++ (feed Chan.writeAll c ws).2.2 ∧
    (c.Sound → (∀ r ∈ (feed Chan.writeAll c ws).2.1, r = none) ∧ (feed Chan.writeAll c ws).1.Sound)
  | [], c => ⟨by simp [feed], fun h => ⟨(fun _ h => nomatch h), h⟩⟩
  | w :: ws, c => by
    obtain ⟨h1, h2⟩ := c.writeAll_spec w
    unfold feed
    revert h1 h2
    rcases c.writeAll w with ⟨c1, r⟩
    intro h1 h2
    obtain ⟨h3, h4⟩ := feed_chan ws c1
    revert h3 h4
    simp only
    rcases feed Chan.writeAll c1 ws with ⟨c2, rs, out⟩
    intro h3 h4
    simp only at h1 h2 h3 h4 ⊢
    refine ⟨by rw [h3, h1, List.append_assoc], fun hs => ⟨?_, (h4 (h2 hs).2).2⟩⟩
    intro q hq
    rcases List.mem_cons.1 hq with rfl | hq
    · exact (h2 hs).1
    · exact (h4 (h2 hs).2).1 q hq

theorem feed_buf : ∀ (ws : List Bytes) (b : BufW), b.held.length ≤ capacity →
    (feed BufW.writeAll b ws).1.chan.out ++ (feed BufW.writeAll b ws).1.held = b.chan.out ++ b.held ++ (feed BufW.writeAll b ws).2.2 ∧
    (feed BufW.writeAll b ws).1.held.length ≤ capacity ∧
    (b.chan.Sound → (∀ r ∈ (feed BufW.writeAll b ws).2.1, r = none) ∧ (feed BufW.writeAll b ws).1.chan.Sound)
  | [], b, hb => ⟨by simp [feed], hb, fun h => ⟨(fun _ h => nomatch h), h⟩⟩
  | w :: ws, b, hb => by
    obtain ⟨h1, h0, h2⟩ := b.writeAll_spec w hb
    unfold feed
    revert h1 h0 h2
    rcases b.writeAll w with ⟨b1, r⟩
    intro h1 h0 h2
    obtain ⟨h3, h5, h4⟩ := feed_buf ws b1 h0
    revert h3 h5 h4
    simp only
    rcases feed BufW.writeAll b1 ws with ⟨c2, rs, out⟩
    intro h3 h5 h4
    simp only at h1 h2 h3 h4 h5 ⊢
    refine ⟨by rw [h3, h1, List.append_assoc], h5, fun hs => ⟨?_, (h4 (h2 hs).2).2⟩⟩
    intro q hq
    rcases List.mem_cons.1 hq with rfl | hq
    · exact (h2 hs).1
    · exact (h4 (h2 hs).2).1 q hq

/-- Answers that are all positive belong to the empty plan. -/
theorem Answers.nil {plan rs : List (Option WriteFault)} (h : Answers plan rs) (hr : ∀ r ∈ rs, r = none) : plan = [] := by
  obtain ⟨h1, n, h2⟩ := h
  rcases List.eq_nil_or_concat plan with h | ⟨l, a, h⟩
  · exact h
  · have := hr a (by rw [h2, h]; simp)
    subst this
    rw [h, List.concat_eq_append, List.getLast?_append] at h1
    exact absurd rfl h1

/-- Small writes are held back. -/
theorem feed_small : ∀ (ws : List Bytes) (b : BufW), b.held.length + ws.flatten.length < capacity →
    feed BufW.writeAll b ws = (⟨b.chan, b.held ++ ws.flatten⟩, List.replicate ws.length none, ws.flatten)
  | [], b, _ => by simp [feed]
  | w :: ws, b, h => by
    rw [List.flatten_cons, List.length_append] at h
    unfold feed
    have hw : b.writeAll w = (⟨b.chan, b.held ++ w⟩, none) := by
      unfold BufW.writeAll
      rw [if_pos (.inl (by omega))]
    rw [hw]
    simp only
    rw [feed_small ws ⟨b.chan, b.held ++ w⟩ (by simp only [List.length_append]; omega)]
    simp [accepted, List.replicate_succ]

/-- The conversion with an output that never fails. -/
def ideal (turns fuel : Nat) (args : Args) (reader : Reader) : Bytes × Conv :=
  ((convert turns fuel args reader ⟨⟨[], []⟩, []⟩).1.w.out, (convert turns fuel args reader ⟨⟨[], []⟩, []⟩).2)

/-- C74 for the conversion of the tool. -/
theorem convert_ok {turns fuel : Nat} {args : Args} {reader : Reader} {plan : List (Option WriteFault)} {fs : List (Option Nat)} {d : Dest}
    (h : convert turns fuel args reader ⟨⟨[], plan⟩, fs⟩ = (d, .ok)) :
    ideal turns fuel { args with unbuffered := false } reader = (d.w.out, .ok) := by
  unfold ideal
  unfold convert at h ⊢
  simp only
  by_cases ha : args.toDdb = true
  · rw [if_pos ha] at h ⊢
    have hf := (C74_to_ddb_partial turns fuel reader ⟨⟨[], plan⟩, fs⟩ lookBuffer nameBuffer args.pretty args.unbuffered
      (!args.withoutItem)).1
    revert h hf
    rcases convertNormalToDdb turns fuel reader ⟨⟨[], plan⟩, fs⟩ lookBuffer nameBuffer args.pretty args.unbuffered
      (!args.withoutItem) with ⟨b, r⟩
    intro h hf
    injection h with h1 h2
    subst h1 h2
    rw [show (⟨⟨[], []⟩, []⟩ : Dest) = Dest.perfect ⟨⟨[], plan⟩, fs⟩ from rfl, hf nofun]
    rfl
  · rw [if_neg ha] at h ⊢
    have hf := (C74_to_normal turns fuel reader ⟨⟨[], plan⟩, fs⟩ lookBuffer nameBuffer args.pretty args.unbuffered
      true).1
    revert h hf
    rcases convertDdbToNormal turns fuel reader ⟨⟨[], plan⟩, fs⟩ lookBuffer nameBuffer args.pretty args.unbuffered
      true with ⟨b, r⟩
    intro h hf
    injection h with h1 h2
    subst h1 h2
    rw [show (⟨⟨[], []⟩, []⟩ : Dest) = Dest.perfect ⟨⟨[], plan⟩, fs⟩ from rfl, hf nofun]
    rfl

theorem convert_plan (turns fuel : Nat) (args : Args) (reader : Reader) (fs : List (Option Nat)) :
    (convert turns fuel args reader ⟨⟨[], []⟩, fs⟩).1.w.plan = [] := by
  have plan : ∀ {d : Dest} {ks : List Nat}, Kinds ⟨⟨[], []⟩, fs⟩ d ks → d.w.plan = [] := by
    rintro d ks ⟨ws, _, h, _⟩
    exact (List.append_eq_nil_iff.1 h.symm).2
  unfold convert
  split
  · obtain ⟨_, h, _⟩ := C45_write_error_partial turns fuel reader ⟨⟨[], []⟩, fs⟩ lookBuffer nameBuffer args.pretty
      args.unbuffered (!args.withoutItem)
    revert h
    rcases convertNormalToDdb turns fuel reader ⟨⟨[], []⟩, fs⟩ lookBuffer nameBuffer args.pretty args.unbuffered (!args.withoutItem) with ⟨b, r⟩
    exact plan
  · obtain ⟨_, h, _⟩ := C48_write_error turns fuel reader ⟨⟨[], []⟩, fs⟩ lookBuffer nameBuffer args.pretty
      args.unbuffered true
    revert h
    rcases convertDdbToNormal turns fuel reader ⟨⟨[], []⟩, fs⟩ lookBuffer nameBuffer args.pretty args.unbuffered true with ⟨b, r⟩
    exact plan

theorem exit_zero {r : Conv} (h : exitStatus r = some 0) : r = .ok := by
  cases r with
  | ok => rfl
  | err e p => cases h
  | panic => cases h
  | diverge => cases h

/-- Property C75 with `--unbuffered`: if the exit status is 0, then the whole output has reached the channel, whatever the channel did. -/
theorem C75_unbuffered (turns fuel : Nat) (args : Args) (reader : Reader) (c c' : Chan) (r : Conv) (hu : args.unbuffered = true)
    (h : Runs turns fuel args reader c c' r) (he : exitStatus r = some 0) :
    c'.out = c.out ++ (ideal turns fuel { args with unbuffered := false } reader).1 := by
  obtain rfl := exit_zero he
  obtain ⟨ws, plan, rs, d, h1, _, _, h2⟩ := h
  rw [if_pos hu] at h2
  obtain ⟨c1, h2, rfl⟩ := h2
  rw [convert_ok h1]
  have h3 := (feed_chan ws c).1
  rw [h2] at h3
  exact h3

/-- Property C75 without `--unbuffered`: if the exit status is 0, then at most the last 8192 bytes of the output have not reached the channel,
and all of them have if the channel does not fail. The full statement is that the whole output has reached the channel, whatever the channel
did. It is false: `C75_silent`. -/
theorem C75_buffered_partial (turns fuel : Nat) (args : Args) (reader : Reader) (c c' : Chan) (r : Conv) (hu : args.unbuffered = false)
    (h : Runs turns fuel args reader c c' r) (he : exitStatus r = some 0) :
    ∃ lost, c'.out ++ lost = c.out ++ (ideal turns fuel args reader).1 ∧ lost.length ≤ 8192 ∧ (c.Sound → lost = []) := by
  obtain rfl := exit_zero he
  obtain ⟨ws, plan, rs, d, h1, _, _, h2⟩ := h
  rw [if_neg (by rw [hu]; exact nofun)] at h2
  obtain ⟨b, h2, rfl⟩ := h2
  have h0 := convert_ok h1
  rw [show ({ args with unbuffered := false } : Args) = args by rw [← hu]] at h0
  rw [h0]
  obtain ⟨h3, h4, h5⟩ := feed_buf ws ⟨c, []⟩ (Nat.zero_le _)
  rw [h2] at h3 h4 h5
  obtain ⟨h6, h7, h8, h9⟩ := b.flushBuf_spec
  refine ⟨b.flushBuf.1.held, ?_, Nat.le_trans h7 h4, fun hs => h8 (h9 (h5 hs).2).1⟩
  show b.flushBuf.1.chan.out ++ b.flushBuf.1.held = _
  rw [h6, h3, List.append_nil]

/-- Negation of C75 without `--unbuffered`, for every input whose conversion succeeds and gives less than 8192 bytes: if the channel fails, the
exit status is 0 nevertheless, and the channel has received nothing. However the output is divided into calls, all of them are answered
as successful. -/
theorem C75_silent (turns fuel : Nat) (args : Args) (reader : Reader) (out : Bytes) (hu : args.unbuffered = false)
    (hi : ideal turns fuel args reader = (out, .ok)) (ho : out.length < 8192) (ho' : out ≠ []) (c : Chan) (k : Nat)
    (rest : List (Except Nat Nat)) (hc : c.plan = .error k :: rest) :
    (∀ ws : List Bytes, ws.flatten = out →
      ∃ b, feed BufW.writeAll ⟨c, []⟩ ws = (b, List.replicate ws.length none, out) ∧ (b.finish .ok).out = c.out) ∧
    ∃ c', Runs turns fuel args reader c c' .ok ∧ c'.out = c.out := by
  have hfin : ((⟨c, out⟩ : BufW).finish .ok).out = c.out := by
    simp only [BufW.finish, BufW.flushBuf, hc, drain, if_neg ho']
  have hfeed : ∀ ws : List Bytes, ws.flatten = out → feed BufW.writeAll ⟨c, []⟩ ws = (⟨c, out⟩, List.replicate ws.length none, out) := by
    rintro ws rfl
    rw [feed_small ws ⟨c, []⟩ (by rw [List.length_nil, Nat.zero_add]; exact ho)]
    rfl
  refine ⟨fun ws hw => ⟨_, hfeed ws hw, hfin⟩, _, ⟨[out], [], List.replicate 1 none, (convert turns fuel args reader ⟨⟨[], []⟩, []⟩).1, ?_,
    convert_plan .., ⟨nofun, 1, rfl⟩, ?_⟩, hfin⟩
  · rw [if_neg (by rw [hu]; exact nofun)]
    rw [← (Prod.mk.inj hi).2]
  · rw [if_neg (by rw [hu]; exact nofun)]
    refine ⟨_, ?_, rfl⟩
    rw [(Prod.mk.inj hi).1]
    exact hfeed [out] (by simp)

/-- Property C76 with `--unbuffered`: if the channel does not fail, then everything that the conversion has written has reached the channel,
whether the conversion succeeds or not. -/
theorem C76_unbuffered (turns fuel : Nat) (args : Args) (reader : Reader) (c c' : Chan) (r : Conv) (hu : args.unbuffered = true) (hs : c.Sound)
    (hf : c.flushes = []) (h : Runs turns fuel args reader c c' r) :
    ∃ out, ideal turns fuel args reader = (out, r) ∧ c'.out = c.out ++ out := by
  obtain ⟨ws, plan, rs, d, h1, _, h0, h2⟩ := h
  rw [if_pos hu] at h1 h2
  obtain ⟨c1, h2, rfl⟩ := h2
  obtain ⟨h3, h4⟩ := feed_chan ws c
  rw [h2] at h3 h4
  obtain rfl := h0.nil (h4 hs).1
  rw [hf] at h1
  refine ⟨d.w.out, ?_, h3⟩
  unfold ideal
  rw [h1]

/-- Property C76 without `--unbuffered`: if the channel does not fail, then at most the last 8192 bytes that the conversion has written have not
reached the channel; all of them have if the conversion succeeds. The full statement is that all of them have in any case. It is false:
`C76_nothing`. -/
theorem C76_buffered_partial (turns fuel : Nat) (args : Args) (reader : Reader) (c c' : Chan) (r : Conv) (hu : args.unbuffered = false) (hs : c.Sound)
    (h : Runs turns fuel args reader c c' r) :
    ∃ out lost, ideal turns fuel args reader = (out, r) ∧ c'.out ++ lost = c.out ++ out ∧ lost.length ≤ 8192 ∧ (r = .ok → lost = []) := by
  obtain ⟨ws, plan, rs, d, h1, _, h0, h2⟩ := h
  rw [if_neg (by rw [hu]; exact nofun)] at h1 h2
  obtain ⟨b, h2, rfl⟩ := h2
  obtain ⟨h3, h4, h5⟩ := feed_buf ws ⟨c, []⟩ (Nat.zero_le _)
  rw [h2] at h3 h4 h5
  obtain rfl := h0.nil (h5 hs).1
  obtain ⟨h6, h7, h8, h9⟩ := b.flushBuf_spec
  have hi : ideal turns fuel args reader = (d.w.out, r) := by
    unfold ideal
    rw [h1]
  rw [List.append_nil] at h3
  have flushed : b.flushBuf.1.chan.out ++ [] = c.out ++ d.w.out := by rw [← h8 (h9 (h5 hs).2).1, h6, h3]
  refine ⟨d.w.out, match r with | .ok => [] | .panic => [] | _ => b.held, hi, ?_, ?_, ?_⟩
  · cases r with
    | ok => exact flushed
    | panic => exact flushed
    | err e p => exact h3
    | diverge => exact h3
  · cases r with
    | ok => exact Nat.zero_le _
    | panic => exact Nat.zero_le _
    | err e p => exact h4
    | diverge => exact h4
  · rintro rfl
    rfl

/-- Negation of C76 without `--unbuffered`, for every input whose conversion fails when it has written less than 8192 bytes: the channel
receives nothing of them. However the output is divided into calls, all of them are answered as successful. -/
theorem C76_nothing (turns fuel : Nat) (args : Args) (reader : Reader) (out : Bytes) (e : ConvErr) (p : Nat) (hu : args.unbuffered = false)
    (hi : ideal turns fuel args reader = (out, .err e p)) (ho : out.length < 8192) (c : Chan) :
    (∀ ws : List Bytes, ws.flatten = out →
      ∃ b, feed BufW.writeAll ⟨c, []⟩ ws = (b, List.replicate ws.length none, out) ∧ b.finish (.err e p) = c) ∧
    Runs turns fuel args reader c c (.err e p) := by
  have hfeed : ∀ ws : List Bytes, ws.flatten = out → feed BufW.writeAll ⟨c, []⟩ ws = (⟨c, out⟩, List.replicate ws.length none, out) := by
    rintro ws rfl
    rw [feed_small ws ⟨c, []⟩ (by rw [List.length_nil, Nat.zero_add]; exact ho)]
    rfl
  refine ⟨fun ws hw => ⟨_, hfeed ws hw, rfl⟩, [out], [], List.replicate 1 none, (convert turns fuel args reader ⟨⟨[], []⟩, []⟩).1, ?_,
    convert_plan .., ⟨nofun, 1, rfl⟩, ?_⟩
  · rw [if_neg (by rw [hu]; exact nofun)]
    rw [← (Prod.mk.inj hi).2]
  · rw [if_neg (by rw [hu]; exact nofun)]
    refine ⟨⟨c, out⟩, ?_, rfl⟩
    rw [(Prod.mk.inj hi).1]
    exact hfeed [out] (by simp)

theorem feed_one {σ : Type} (write : σ → Bytes → σ × Option WriteFault) (s : σ) (w : Bytes) (h : (write s w).2 = none) :
    feed write s [w] = ((write s w).1, [none], w) := by
  unfold feed
  revert h
  rcases write s w with ⟨s1, r⟩
  rintro rfl
  simp [feed, accepted]

/-- There is a run for every channel that does not fail. -/
theorem runs_sound (turns fuel : Nat) (args : Args) (reader : Reader) (c : Chan) (hs : c.Sound) (hf : c.flushes = []) :
    ∃ c', Runs turns fuel args reader c c' (ideal turns fuel args reader).2 := by
  have hrun : convert turns fuel args reader ⟨⟨[], []⟩, if args.unbuffered then c.flushes else []⟩ =
      ((convert turns fuel args reader ⟨⟨[], []⟩, []⟩).1, (ideal turns fuel args reader).2) := by
    rw [hf, ite_self]
    rfl
  cases hu : args.unbuffered
  · obtain ⟨_, _, h⟩ := (⟨c, []⟩ : BufW).writeAll_spec (ideal turns fuel args reader).1 (Nat.zero_le _)
    refine ⟨((⟨c, []⟩ : BufW).writeAll (ideal turns fuel args reader).1).1.finish (ideal turns fuel args reader).2,
      [(ideal turns fuel args reader).1], [], [none], _, hrun, convert_plan .., ⟨nofun, 1, rfl⟩, ?_⟩
    rw [hu, if_neg nofun]
    exact ⟨_, feed_one _ _ _ (h hs).1, rfl⟩
  · obtain ⟨_, h⟩ := c.writeAll_spec (ideal turns fuel args reader).1
    refine ⟨{ (c.writeAll (ideal turns fuel args reader).1).1 with
      flushes := (convert turns fuel args reader ⟨⟨[], []⟩, []⟩).1.flushes },
      [(ideal turns fuel args reader).1], [], [none], _, hrun, convert_plan .., ⟨nofun, 1, rfl⟩, ?_⟩
    rw [hu, if_pos rfl]
    exact ⟨_, feed_one _ _ _ (h hs).1, rfl⟩

/-- `ddb_convert to-ddb --without-item` with the input `{"a":true}`, without `--unbuffered`. -/
theorem exSilent : ideal 30 30 ⟨true, false, true, false⟩ [.data 123 "\"a\":true}".toUTF8.toList] =
    ("{\"a\":{\"BOOL\":true}}\n".toUTF8.toList, .ok) := by decide +kernel

/-- Its output goes to a disk that is full: the exit status is 0. -/
example : ∃ c', Runs 30 30 ⟨true, false, true, false⟩ [.data 123 "\"a\":true}".toUTF8.toList] ⟨[], [.error 28], []⟩ c' .ok ∧ c'.out = [] :=
  (C75_silent 30 30 _ _ _ rfl exSilent (by decide +kernel) (by decide +kernel) _ 28 [] rfl).2

/-- The input `{} {`: there is an error behind the first object. -/
theorem exNothing : ∃ e p, ideal 30 30 ⟨true, false, true, false⟩ [.data 123 "} {".toUTF8.toList] = ("{}\n{".toUTF8.toList, .err e p) :=
  ⟨.scan (.rjiter ⟨.json .eofWhileParsingObject, 5⟩), 5, by decide +kernel⟩

/-- The converted first object does not reach the channel, though the channel does not fail. -/
example : ∃ e p, Runs 30 30 ⟨true, false, true, false⟩ [.data 123 "} {".toUTF8.toList] ⟨[], [], []⟩ ⟨[], [], []⟩ (.err e p) := by
  obtain ⟨e, p, h⟩ := exNothing
  exact ⟨e, p, (C76_nothing 30 30 _ _ _ e p rfl h (by decide +kernel) _).2⟩

/-- The hypotheses of the positive theorems: a channel that accepts at most two bytes at a time at first. -/
example : (⟨[], [.ok 1, .ok 1], []⟩ : Chan).Sound ∧
    ∃ c', Runs 30 30 ⟨true, false, true, true⟩ [.data 123 "\"a\":true}".toUTF8.toList] ⟨[], [.ok 1, .ok 1], []⟩ c'
      (ideal 30 30 ⟨true, false, true, true⟩ [.data 123 "\"a\":true}".toUTF8.toList]).2 := by
  have h : (⟨[], [.ok 1, .ok 1], []⟩ : Chan).Sound := by
    intro p hp
    simp only [List.mem_cons, List.not_mem_nil, or_false, or_self] at hp
    exact ⟨1, hp⟩
  exact ⟨h, runs_sound _ _ _ _ _ h rfl⟩

end Verif.Ddb
