import Verif.RJiter.Trace

/-!
# The buffer does not change below `n_bytes` while nothing is shifted out, and where a returned value was read
-/

namespace Verif.RJiter

open Buffer

theorem Via.prefix {b b' : Buffer} {out : Bytes} (h : Via b b' out) (hok : b.nBytes ≤ b.buf.length) (ho : out = []) :
    b.valid <+: b'.valid := by
  induction h with
  | refl b => exact List.prefix_rfl
  | shift b t f =>
    have hc := shift_counts b hok t f
    have hlen := congrArg List.length ho
    by_cases htf : t < f ∧ t < b.nBytes
    · have := valid_length hok
      simp only [List.length_drop, List.length_take, List.length_nil] at hlen
      omega
    · have hb : b.shift t f = b := by
        simp only [Buffer.shift]
        rw [if_neg (by omega), if_neg (by omega)]
      rw [hb]
      exact List.prefix_rfl
  | read b =>
    rcases b.readMore_cases hok with ⟨_, e⟩ | ⟨_, e⟩ | ⟨q, r', hlt, hr, e⟩ |
      ⟨b', bs, e, hb, hv, hn, ho, hl', hp, hs', hcl, h1, h2, h3, _⟩
    · rw [e]; exact List.prefix_rfl
    · rw [e]; exact List.prefix_rfl
    · rw [e]; exact List.prefix_rfl
    · rw [e]; exact ⟨bs, hv.symm⟩
  | trans h1 h2 ih1 ih2 =>
    rw [List.append_eq_nil_iff] at ho
    exact (ih1 hok ho.1).trans (ih2 (h1.counts hok).1 ho.2)

/-- As long as nothing is shifted out, the valid bytes stay where they are. -/
theorem Reach.prefix {b b' : Buffer} (h : Reach b b') (hok : b.nBytes ≤ b.buf.length) (hs : b'.nShifted = b.nShifted) :
    b.valid <+: b'.valid := by
  obtain ⟨out, h⟩ := h
  refine h.prefix hok ?_
  have := (h.counts hok).2.2.1
  exact List.eq_nil_of_length_eq_zero (by omega)

namespace RJ

/-- The attempt that succeeded read from the buffer as it is afterwards. -/
def ReadAt {α : Type} (f : JFn α) (s' : RJ) (v : α) : Prop :=
  ∃ k n, f ((s'.b.buf.take s'.jlen).drop k) = (n, .ok v) ∧ s'.jidx = k + n

theorem retryLoop_readAt {α : Type} {f : JFn α} (eager : Bool) : ∀ (fuel : Nat) (s s' : RJ) (v : α),
    retryLoop f eager fuel s = (s', .ok v) → ReadAt f s' v := by
  intro fuel
  induction fuel with
  | zero => intro s s' v h; simp [retryLoop] at h
  | succ fuel ih =>
    intro s s' v h
    simp only [retryLoop, call] at h
    rcases hd : f s.jdata with ⟨n, r⟩
    rw [hd] at h
    cases r with
    | error e =>
      simp only at h
      split at h
      · simp at h
      · split at h
        · split at h
          · simp at h
          · exact ih _ _ _ h
        · simp at h
        · simp at h
        · simp at h
    | ok w =>
      simp only at h
      split at h
      · simp only [Prod.mk.injEq, Res.ok.injEq] at h
        obtain ⟨rfl, rfl⟩ := h
        exact ⟨s.jidx, n, hd, rfl⟩
      · split at h
        · rename_i b2 m hb
          split at h
          · simp only [Prod.mk.injEq, Res.ok.injEq] at h
            obtain ⟨rfl, rfl⟩ := h
            rename_i hm
            refine ⟨s.jidx, n, ?_, rfl⟩
            have : b2.buf = s.b.buf := by
              simp only [Buffer.readMore] at hb
              split at hb
              · simp at hb
              · split at hb
                · simp at hb
                · rename_i bs _
                  simp only [Prod.mk.injEq, Res.ok.injEq] at hb
                  obtain ⟨rfl, hbs⟩ := hb
                  have : bs = [] := List.eq_nil_of_length_eq_zero (by omega)
                  simp [this]
            simp only [this]
            exact hd
          · exact ih _ _ _ h
        · simp at h
        · simp at h
        · simp at h

theorem loopUntilSuccess_readAt {α : Type} {f : JFn α} {tok : Option Byte} {eager : Bool} {fuel : Nat} {s s' : RJ} {v : α}
    (h : s.loopUntilSuccess fuel f tok eager = (s', .ok v)) : ReadAt f s' v := by
  have hretry : ∀ s1, (match skipSpacesFeeding fuel s1 s.jidx tok with
      | (s2, .ok ()) => retryLoop f eager fuel s2
      | (s2, .err e) => (s2, .err e)
      | (s2, .panic) => (s2, .panic)
      | (s2, .diverge) => (s2, .diverge)) = (s', .ok v) → ReadAt f s' v := by
    intro s1 h
    split at h
    · exact retryLoop_readAt eager _ _ _ _ h
    · simp at h
    · simp at h
    · simp at h
  simp only [loopUntilSuccess, call] at h
  rcases hd : f s.jdata with ⟨n, r⟩
  rw [hd] at h
  cases r with
  | error e => exact hretry _ h
  | ok w =>
    simp only at h
    split at h
    · simp only [Prod.mk.injEq, Res.ok.injEq] at h
      obtain ⟨rfl, rfl⟩ := h
      exact ⟨s.jidx, n, hd, rfl⟩
    · exact hretry _ h

end RJ

end Verif.RJiter
