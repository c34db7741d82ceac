import Verif.Scan.Cut

/-!
# What is in the errors of `scan`

A tool for property C96, for any input: the names a callback is called with have no control characters, and the messages in the errors are those
of the callbacks and those of `scan`.
-/

namespace Verif.Scan

open Verif.U8Pool (Pool PoolError)
open Verif.RJiter
open Verif.RJiter.Jiter (rawString)

/-- Bytes without control characters below the space. -/
def Clear (bs : Bytes) : Prop := ∀ b ∈ bs, 32 ≤ b

instance (bs : Bytes) : Decidable (Clear bs) := inferInstanceAs (Decidable (∀ b ∈ bs, 32 ≤ b))

/-- The callbacks keep `I` when they are called with names without control characters, and the messages they give are in `Q`. -/
structure Speaks {β : Type} (cb : Callbacks β) (I : β → Prop) (Q : String → Prop) : Prop where
  find : ∀ p c b, (∀ n ∈ c.path, Clear n) → I b → I (cb.find p c b).1 ∧
    ∀ a, (cb.find p c b).2 = some a → ∀ s, I (a s (cb.find p c b).1).1.2 ∧ ∀ m, (a s (cb.find p c b).1).2 = .op (.error m) → Q m
  findEnd : ∀ p c b, (∀ n ∈ c.path, Clear n) → I b → I (cb.findEnd p c b).1 ∧
    ∀ a, (cb.findEnd p c b).2 = some a → I (a (cb.findEnd p c b).1).1 ∧ ∀ m, (a (cb.findEnd p c b).1).2 = some m → Q m

/-- An error whose message is in `Q`, with a level of at most `L`. -/
def Worded (Q : String → Prop) (L : Nat) : SErr → Prop
  | .action m _ => Q m
  | .internal _ m => Q m
  | .maxNesting _ level => level ≤ L
  | _ => True

/-- The messages of the internal errors of scan.rs. -/
def ownMessages : List String :=
  ["Context stack is empty when ending object", "Context stack is empty when handling ValueIsConsumed", "Failed to push key to context pool",
    "Context stack is empty when ending array", "Context stack is empty when handling ValueIsConsumed in array", "Unexpected position from handle_array"]

/-! ## Keys -/

theorem rawString_clear : ∀ (k : Nat) (d : Bytes) (i n : Nat), d.length ≤ k → rawString d i = .ok n → i ≤ n ∧ Clear (d.take (n - i)) := by
  intro k
  induction k with
  | zero =>
    intro d i n hl h
    rw [List.length_eq_zero_iff.mp (Nat.le_zero.mp hl)] at h
    simp [rawString] at h
  | succ k ih =>
    intro d i n hl h
    rw [rawString.eq_def] at h
    cases d with
    | nil => simp at h
    | cons c cs =>
      simp only [List.length_cons] at h hl
      split at h
      · simp only [Except.ok.injEq] at h
        subst h
        exact ⟨Nat.le_refl _, by simp [Clear]⟩
      split at h
      · rename_i hc
        subst hc
        cases cs with
        | nil => simp at h
        | cons e cs' =>
          simp only [List.length_cons] at h hl
          have key : ∀ he : 32 ≤ e, rawString cs' (i + 2) = .ok n → i ≤ n ∧ Clear ((92 :: e :: cs').take (n - i)) := by
            intro he h
            obtain ⟨h1, h2⟩ := ih cs' (i + 2) n (by omega) h
            refine ⟨by omega, ?_⟩
            rw [show n - i = (n - (i + 2)) + 1 + 1 by omega, List.take_succ_cons, List.take_succ_cons]
            intro b hb
            simp only [List.mem_cons] at hb
            rcases hb with rfl | rfl | hb
            · decide
            · exact he
            · exact h2 b hb
          split at h
          · rename_i he
            refine key ?_ h
            rcases he with rfl | rfl | rfl | rfl | rfl | rfl | rfl | rfl <;> decide
          split at h
          · rename_i he
            split at h
            · simp at h
            · exact key (by subst he; decide) h
          · simp at h
      split at h
      · simp at h
      · rename_i hc
        obtain ⟨h1, h2⟩ := ih cs (i + 1) n (by omega) h
        refine ⟨by omega, ?_⟩
        rw [show n - i = (n - (i + 1)) + 1 by omega, List.take_succ_cons]
        intro b hb
        simp only [List.mem_cons] at hb
        rcases hb with rfl | hb
        · exact UInt8.not_lt.mp hc
        · exact h2 b hb

/-- What a parser function returns is in `P`. -/
def Yields {α : Type} (f : JFn α) (P : α → Prop) : Prop := ∀ d n v, f d = (n, .ok v) → P v

theorem knownBytes_yields : Yields Jiter.knownBytes Clear := by
  intro d n v h
  unfold Jiter.knownBytes at h
  rcases hr : rawString (d.drop 1) 0 with e | k
  · rw [hr] at h; simp [jerr] at h
  · rw [hr] at h
    simp only [Prod.mk.injEq, Except.ok.injEq] at h
    rw [← h.2]
    exact (rawString_clear _ _ _ _ (Nat.le_refl _) hr).2

theorem objectKey_yields : Yields (Jiter.objectKey Jiter.knownBytes) Clear := by
  intro d n v h
  unfold Jiter.objectKey at h
  rcases hk : Jiter.knownBytes d with ⟨m, e | k⟩
  · rw [hk] at h; simp at h
  · rw [hk] at h
    simp only at h
    split at h
    · simp [jerr] at h
    · split at h
      · simp only [Prod.mk.injEq, Except.ok.injEq] at h
        rw [← h.2]; exact knownBytes_yields _ _ _ hk
      · simp [jerr] at h

/-- A key, if there is one. -/
def ClearKey : Option Bytes → Prop
  | none => True
  | some k => Clear k

theorem keyAt_yields {d : Bytes} {w n : Nat} {v : Option Bytes} (h : Jiter.keyAt Jiter.knownBytes d w = (n, .ok v)) : ClearKey v := by
  unfold Jiter.keyAt at h
  rcases hk : Jiter.objectKey Jiter.knownBytes (d.drop w) with ⟨m, e | k⟩
  · rw [hk] at h; simp at h
  · rw [hk] at h
    simp only [Prod.mk.injEq, Except.ok.injEq] at h
    rw [← h.2]; exact objectKey_yields _ _ _ hk

theorem knownObject_yields : Yields (Jiter.knownObject Jiter.knownBytes) ClearKey := by
  intro d n v h
  unfold Jiter.knownObject at h
  simp only at h
  split at h
  · simp [jerr] at h
  · split at h
    · exact keyAt_yields h
    split at h
    · simp only [Prod.mk.injEq, Except.ok.injEq] at h
      rw [← h.2]; trivial
    · simp [jerr] at h

theorem nextObject_yields : Yields (Jiter.nextObject Jiter.knownBytes) ClearKey := by
  intro d n v h
  unfold Jiter.nextObject at h
  rcases hp : Jiter.peek d with ⟨w, e | c⟩
  · rw [hp] at h; simp at h
  · rw [hp] at h
    simp only at h
    split at h
    · rcases hk : Jiter.knownObject Jiter.knownBytes (d.drop w) with ⟨m, e | k⟩
      · rw [hk] at h; simp at h
      · rw [hk] at h
        simp only [Prod.mk.injEq, Except.ok.injEq] at h
        rw [← h.2]; exact knownObject_yields _ _ _ hk
    · simp at h

theorem nextKey_yields : Yields (Jiter.nextKey Jiter.knownBytes) ClearKey := by
  intro d n v h
  unfold Jiter.nextKey at h
  simp only at h
  split at h
  · simp [jerr] at h
  · split at h
    · split at h
      · simp [jerr] at h
      · split at h
        · exact keyAt_yields h
        split at h <;> simp [jerr] at h
    split at h
    · simp only [Prod.mk.injEq, Except.ok.injEq] at h
      rw [← h.2]; trivial
    · simp [jerr] at h

theorem call_yields {α : Type} {f : JFn α} {P : α → Prop} (hf : Yields f P) {s s' : RJ} {v : α} (h : s.call f = (s', .ok v)) : P v := by
  unfold RJ.call at h
  rcases hd : f s.jdata with ⟨n, r⟩
  rw [hd] at h
  simp only [Prod.mk.injEq] at h
  exact hf _ _ _ (hd.trans (by rw [h.2]))

theorem retryLoop_yields {α : Type} {f : JFn α} {P : α → Prop} (hf : Yields f P) (eager : Bool) : ∀ (fuel : Nat) (s s' : RJ) (v : α),
    RJ.retryLoop f eager fuel s = (s', .ok v) → P v := by
  intro fuel
  induction fuel with
  | zero => intro s s' v h; simp [RJ.retryLoop] at h
  | succ fuel ih =>
    intro s s' v h
    rw [RJ.retryLoop] at h
    rcases hc : s.call f with ⟨s1, e | u⟩
    · rw [hc] at h
      simp only at h
      split at h
      · simp at h
      revert h
      rcases s1.b.readMore with ⟨b2, n | er | _ | _⟩ <;> intro h
      · simp only at h
        split at h
        · simp at h
        · exact ih _ _ _ h
      all_goals simp at h
    · have hu := call_yields hf hc
      rw [hc] at h
      simp only at h
      split at h
      · simp only [Prod.mk.injEq, Res.ok.injEq] at h
        rw [← h.2]; exact hu
      revert h
      rcases s1.b.readMore with ⟨b2, n | er | _ | _⟩ <;> intro h
      · simp only at h
        split at h
        · simp only [Prod.mk.injEq, Res.ok.injEq] at h
          rw [← h.2]; exact hu
        · exact ih _ _ _ h
      all_goals simp at h

theorem loop_yields {α : Type} {f : JFn α} {P : α → Prop} (hf : Yields f P) {fuel : Nat} {s s' : RJ} {tok : Option Byte} {eager : Bool} {v : α}
    (h : s.loopUntilSuccess fuel f tok eager = (s', .ok v)) : P v := by
  unfold RJ.loopUntilSuccess at h
  simp only at h
  have retry : ∀ s1 : RJ, (match s1.skipSpacesFeeding fuel s.jidx tok with
      | (s2, .ok ()) => RJ.retryLoop f eager fuel s2
      | (s2, .err e) => (s2, .err e)
      | (s2, .panic) => (s2, .panic)
      | (s2, .diverge) => (s2, .diverge)) = (s', .ok v) → P v := by
    intro s1 h
    revert h
    rcases s1.skipSpacesFeeding fuel s.jidx tok with ⟨s2, _ | _ | _ | _⟩ <;> intro h
    · exact retryLoop_yields hf _ _ _ _ _ h
    all_goals simp at h
  rcases hc : s.call f with ⟨s1, e | u⟩
  · rw [hc] at h
    exact retry _ h
  · have hu := call_yields hf hc
    rw [hc] at h
    simp only at h
    split at h
    · simp only [Prod.mk.injEq, Res.ok.injEq] at h
      rw [← h.2]; exact hu
    · exact retry _ h

/-! ## The scan -/

section
variable {β : Type} {cb : Callbacks β} {I : β → Prop} {Q : String → Prop} {R : Room}

/-- The state during a scan. -/
def Sane (I : β → Prop) (R : Room) (st : St β) : Prop :=
  I st.baton ∧ ∃ l, Holds st.pool R l ∧ l.length ≤ R.max ∧ ∀ n ∈ names l, Clear n

/-- The result of a function. -/
def Tells {α : Type} (I : β → Prop) (Q : String → Prop) (R : Room) (x : St β × SRes α) : Prop :=
  match x with
  | (st, .ok _) => Sane I R st
  | (st, .err e) => I st.baton ∧ Worded Q R.max e
  | (_, .panic) => True
  | (_, .diverge) => True

theorem Sane.ctx {st : St β} (h : Sane I R st) : ∀ n ∈ (Ctx.of st.pool).path, Clear n := by
  obtain ⟨_, l, hl, _, hn⟩ := h
  rw [hl.ctx]
  exact hn

theorem Sane.push {st : St β} (h : Sane I R st) {rj : RJ} {q : Pos} {name : Bytes} {p : Pool} {r} (hn : Clear name)
    (hp : st.pool.pushAssoc posLayout [q.byte] name = (p, .ok r)) : Sane I R { st with rj := rj, pool := p } := by
  obtain ⟨hi, l, hl, hm, hc⟩ := h
  refine ⟨hi, (q, name) :: l, hl.push_ok hp, ?_, ?_⟩
  · by_cases hf : R.Fits (names l) name
    · have := hf.1
      simp only [List.length_map, List.length_cons] at this ⊢
      omega
    · obtain ⟨_, _, e, _⟩ := hl.push_full q name hf
      rw [e] at hp
      simp at hp
  · intro n h
    simp only [names, List.map_cons, List.mem_cons] at h
    rcases h with rfl | h
    · exact hn
    · exact hc n h

theorem Sane.pop {st : St β} (h : Sane I R st) {rj : RJ} {b : β} (hb : I b) {p : Pool} {r} (hp : st.pool.popAssoc posLayout = (p, r)) :
    Sane I R ⟨rj, b, p⟩ := by
  obtain ⟨hi, l, hl, hm, hc⟩ := h
  cases l with
  | nil =>
    obtain ⟨p', h1, h2⟩ := Verif.U8Pool.Rel.popAssoc hl posLayout
    rw [hp] at h1
    simp only [Prod.mk.injEq] at h1
    refine ⟨hb, [], ?_, Nat.zero_le _, nofun⟩
    rw [h1.1]
    exact h2
  | cons e l =>
    obtain ⟨p', _, h1, h2⟩ := hl.pop
    rw [hp] at h1
    simp only [Prod.mk.injEq] at h1
    refine ⟨hb, l, by rw [h1.1]; exact h2, by simp only [List.length_cons] at hm; omega, fun n h => hc n (List.mem_cons_of_mem _ h)⟩

theorem topPos_tells (hQ : ∀ m ∈ ownMessages, Q m) {m : String} (hm : m ∈ ownMessages) {st : St β} (h : Sane I R st) : Tells I Q R (st, topPos st m) := by
  unfold topPos
  repeat' split
  all_goals first | trivial | exact h | exact ⟨h.1, hQ _ hm⟩

/-- The result of a callback. -/
def Replies (I : β → Prop) (Q : String → Prop) (R : Room) (x : St β × After) : Prop :=
  match x with
  | (st, .go) => Sane I R st
  | (st, .consumed) => Sane I R st
  | (st, .leave r) => Tells I Q R (st, (r : SRes Empty))

theorem callAction_tells (hC : Speaks cb I Q) (p : Pseudo) {st : St β} (h : Sane I R st) : Replies I Q R (callAction cb p st) := by
  have hf := hC.find p (.of st.pool) st.baton h.ctx h.1
  unfold callAction
  revert hf
  rcases cb.find p (.of st.pool) st.baton with ⟨b, _ | a⟩
  · rintro ⟨h1, _⟩; exact ⟨h1, h.2⟩
  · rintro ⟨_, h2⟩
    have := h2 a rfl st.rj
    simp only at this ⊢
    revert this
    rcases a st.rj b with ⟨⟨rj, b'⟩, (_ | _ | m) | _ | _⟩
    · rintro ⟨h3, _⟩; exact ⟨h3, h.2⟩
    · rintro ⟨h3, _⟩; exact ⟨h3, h.2⟩
    · rintro ⟨h3, h4⟩; exact ⟨h3, h4 m rfl⟩
    · intro _; trivial
    · intro _; trivial

theorem runEnd_tells (hC : Speaks cb I Q) (p : Pseudo) (c : Ctx) (pool : Pool) {st : St β} (hc : ∀ n ∈ c.path, Clear n) (hi : I st.baton)
    (hp : ∃ l, Holds pool R l ∧ l.length ≤ R.max ∧ ∀ n ∈ names l, Clear n) :
    match runEnd { st with baton := (cb.findEnd p c st.baton).1, pool := pool } (cb.findEnd p c st.baton).2 with
    | (st', none) => Sane I R st'
    | (st', some e) => I st'.baton ∧ Worded Q R.max e := by
  have hf := hC.findEnd p c st.baton hc hi
  unfold runEnd
  revert hf
  rcases cb.findEnd p c st.baton with ⟨b, _ | a⟩
  · rintro ⟨h1, _⟩; exact ⟨h1, hp⟩
  · rintro ⟨_, h2⟩
    have := h2 a rfl
    simp only at this ⊢
    revert this
    rcases a b with ⟨b', _ | m⟩
    · rintro ⟨h3, _⟩; exact ⟨h3, hp⟩
    · rintro ⟨h3, h4⟩; exact ⟨h3, h4 m rfl⟩

theorem handleKey_tells (hC : Speaks cb I Q) (hQ : ∀ m ∈ ownMessages, Q m) (F : Nat) (begin : Bool) {st : St β} (h : Sane I R st) :
    Tells I Q R (handleKey F cb begin st) := by
  have hk : ∀ rj key, (if begin then st.rj.nextObjectBytes F else st.rj.nextKeyBytes F) = (rj, .ok (some key)) → Clear key := by
    intro rj key hx
    split at hx
    · exact loop_yields nextObject_yields hx
    · exact loop_yields nextKey_yields hx
  unfold handleKey
  revert hk
  rcases (if begin then st.rj.nextObjectBytes F else st.rj.nextKeyBytes F) with ⟨rj, (_ | key) | e | _ | _⟩
  · intro _
    simp only
    have := runEnd_tells hC .object (.of st.pool) st.pool (st := { st with rj := rj }) h.ctx h.1 h.2
    revert this
    simp only
    rcases runEnd { st with rj := rj, baton := (cb.findEnd .object (.of st.pool) st.baton).1 } (cb.findEnd .object (.of st.pool) st.baton).2 with ⟨st', _ | e⟩
    · intro h1; exact topPos_tells hQ (by decide) h1
    · exact id
  · intro hk
    have hkey := hk rj key rfl
    simp only
    rcases hp : st.pool.pushAssoc posLayout [Pos.objectMiddle.byte] key with ⟨p, v | e | _⟩
    · have := callAction_tells hC .none (h.push (rj := rj) hkey hp)
      revert this
      simp only
      rcases callAction cb .none { st with rj := rj, pool := p } with ⟨st', _ | _ | r⟩
      · exact id
      · exact id
      · rcases r with r | e | _ | _
        · cases r
        · exact id
        · exact id
        · exact id
    · refine ⟨h.1, ?_⟩
      obtain ⟨_, l, hl, _, _⟩ := h
      by_cases hf : R.Fits (names l) key
      · obtain ⟨_, _, e', _⟩ := hl.push .objectMiddle key hf
        rw [e'] at hp
        simp at hp
      · obtain ⟨_, er, e', _, h1, h2⟩ := hl.push_full .objectMiddle key hf
        rw [e'] at hp
        simp only [Prod.mk.injEq, Verif.U8Pool.PRes.err.injEq] at hp
        rw [← hp.2]
        by_cases hm : R.max ≤ l.length
        · rw [h1 hm]; exact Nat.le_refl _
        · unfold keyPushError
          split
          · exact absurd rfl (h2 hm _)
          · exact hQ _ (by decide)
    · trivial
  · intro _; exact ⟨h.1, trivial⟩
  · intro _; trivial
  · intro _; trivial

theorem handleObject_tells (hC : Speaks cb I Q) (hQ : ∀ m ∈ ownMessages, Q m) (F : Nat) (pos : Pos) {st : St β} (h : Sane I R st) :
    Tells I Q R (handleObject F cb pos st) := by
  unfold handleObject
  split
  · have := callAction_tells hC .object h
    revert this
    rcases callAction cb .object st with ⟨st', _ | _ | r⟩
    · intro h1; exact handleKey_tells hC hQ F true h1
    · intro h1; exact topPos_tells hQ (by decide) h1
    · rcases r with r | e | _ | _
      · cases r
      · exact id
      · exact id
      · exact id
  · simp only
    have hgo : ∀ (p : Pool) r, st.pool.popAssoc posLayout = (p, r) → Tells I Q R (match runEnd { st with baton := (cb.findEnd .none (.of st.pool) st.baton).1, pool := p }
          (cb.findEnd .none (.of st.pool) st.baton).2 with
        | (st, some e) => (st, .err e)
        | (st, none) => handleKey F cb false st) := by
      intro p r hp
      have := runEnd_tells hC .none (.of st.pool) p (st := st) h.ctx h.1 (h.pop (rj := st.rj) h.1 hp).2
      revert this
      rcases runEnd { st with baton := (cb.findEnd .none (.of st.pool) st.baton).1, pool := p } (cb.findEnd .none (.of st.pool) st.baton).2 with
        ⟨st', _ | e⟩
      · intro h1; exact handleKey_tells hC hQ F false h1
      · exact id
    rcases hp : st.pool.popAssoc posLayout with ⟨p, v | e | _⟩
    · exact hgo p _ hp
    · exact hgo p _ hp
    · trivial

theorem handleItem_tells (hC : Speaks cb I Q) (hQ : ∀ m ∈ ownMessages, Q m) (F : Nat) (begin : Bool) {st : St β} (h : Sane I R st) :
    Tells I Q R (handleItem F cb begin st) := by
  unfold handleItem
  rcases (if begin then st.rj.knownArray F else st.rj.arrayStep F) with ⟨rj, (_ | c) | e | _ | _⟩
  · simp only
    rcases hp : st.pool.popAssoc posLayout with ⟨p, (_ | v) | e | _⟩
    · exact ⟨h.1, hQ _ (by decide)⟩
    · have hs : Sane I R { st with rj := rj, pool := p } := h.pop h.1 hp
      have := runEnd_tells hC .array (.of p) p (st := { st with rj := rj, pool := p }) hs.ctx hs.1 hs.2
      revert this
      simp only
      rcases runEnd { st with rj := rj, baton := (cb.findEnd .array (.of p) st.baton).1, pool := p } (cb.findEnd .array (.of p) st.baton).2 with ⟨st', _ | e⟩
      · intro h1
        have := topPos_tells (m := "Context stack is empty when ending array") hQ (by decide) h1
        revert this
        simp only
        rcases topPos st' "Context stack is empty when ending array" with _ | _ | _ | _ <;> exact id
      · exact id
    · trivial
    · trivial
  · exact h
  · exact ⟨h.1, trivial⟩
  · trivial
  · trivial

theorem nameTop_clear : Clear nameTop := by decide
theorem nameArray_clear : Clear nameArray := by decide

theorem handleArray_tells (hC : Speaks cb I Q) (hQ : ∀ m ∈ ownMessages, Q m) (F : Nat) (pos : Pos) {st : St β} (h : Sane I R st) :
    Tells I Q R (handleArray F cb pos st) := by
  unfold handleArray
  split
  · have := callAction_tells hC .array h
    revert this
    rcases callAction cb .array st with ⟨st', _ | _ | r⟩
    · intro h1
      simp only
      rcases hp : st'.pool.pushAssoc posLayout [Pos.arrayMiddle.byte] nameArray with ⟨p, v | e | _⟩
      · exact handleItem_tells hC hQ F true (Sane.push (rj := st'.rj) h1 nameArray_clear hp)
      · refine ⟨h1.1, ?_⟩
        obtain ⟨_, l, hl, hm, _⟩ := h1
        by_cases hf : R.Fits (names l) nameArray
        · obtain ⟨_, _, e', _⟩ := hl.push .arrayMiddle nameArray hf
          rw [e'] at hp
          simp at hp
        · obtain ⟨p', er, e', h1, _⟩ := hl.push_full .arrayMiddle nameArray hf
          rw [e'] at hp
          simp only [Prod.mk.injEq] at hp
          rw [← hp.1]
          simp only [Worded, h1.len]
          exact hm
      · trivial
    · intro h1
      have := topPos_tells (m := "Context stack is empty when handling ValueIsConsumed in array") hQ (by decide) h1
      revert this
      simp only
      rcases topPos st' "Context stack is empty when handling ValueIsConsumed in array" with _ | _ | _ | _ <;> exact id
    · rcases r with r | e | _ | _
      · cases r
      · exact id
      · exact id
      · exact id
  · exact handleItem_tells hC hQ F false h

/-- The result of a turn. -/
def Rounds (I : β → Prop) (Q : String → Prop) (R : Room) (x : St β × Step) : Prop :=
  match x with
  | (st, .next _) => Sane I R st
  | (st, .done r) => Tells I Q R (st, (r : SRes Unit))

theorem skipSse_fair {F : Nat} : ∀ {ts : List Bytes} {rj rj' : RJ} {e : SErr}, skipSse F ts rj = (rj', some (.err e)) → False := by
  intro ts
  induction ts with
  | nil => intro rj rj' e h; simp [skipSse] at h
  | cons t ts ih =>
    intro rj rj' e h
    rw [skipSse] at h
    revert h
    rcases rj.knownSkipToken F t with ⟨rj1, _ | _ | _ | _⟩ <;> intro h
    · simp at h
    · exact ih h
    · simp at h
    · simp at h

theorem onValue_tells (hC : Speaks cb I Q) (F : Nat) (opt : Options) (c : Byte) (pos : Pos) {st : St β} (h : Sane I R st) :
    Rounds I Q R (onValue F cb opt c pos st) := by
  unfold onValue
  split
  · exact h
  split
  · exact h
  have := callAction_tells hC .atom h
  revert this
  rcases callAction cb .atom st with ⟨st', _ | _ | r⟩
  · intro h1
    simp only
    rcases skipBasic F c st'.rj with ⟨rj, _ | e | _ | _⟩
    · exact h1
    · simp only
      split
      · rcases hx : skipSse F opt.sseTokens rj with ⟨rj', _ | (_ | e | _ | _)⟩
        · exact ⟨h1.1, trivial⟩
        · exact h1
        · exact (skipSse_fair hx).elim
        · trivial
        · trivial
      · exact ⟨h1.1, trivial⟩
    · trivial
    · trivial
  · intro h1; exact h1
  · rcases r with r | e | _ | _
    · cases r
    · exact id
    · exact id
    · exact id

theorem turn_tells (hC : Speaks cb I Q) (hQ : ∀ m ∈ ownMessages, Q m) (F : Nat) (opt : Options) (pos : Pos) {st : St β} (h : Sane I R st) :
    Rounds I Q R (turn F cb opt pos st) := by
  unfold turn
  split
  · have := handleObject_tells hC hQ F pos h
    revert this
    rcases handleObject F cb pos st with ⟨st', p | e | _ | _⟩ <;> exact id
  split
  · have := handleArray_tells hC hQ F pos h
    revert this
    rcases handleArray F cb pos st with ⟨st', ⟨_ | c, p⟩ | e | _ | _⟩
    · exact id
    · intro h1
      simp only
      split
      · exact onValue_tells hC F opt c _ h1
      · exact ⟨h1.1, hQ _ (by decide)⟩
    · exact id
    · exact id
    · exact id
  · rcases st.rj.peek F with ⟨rj, c | e | _ | _⟩
    · exact onValue_tells hC F opt c _ (st := { st with rj := rj }) h
    · simp only
      split
      · split
        · exact ⟨h.1, trivial⟩
        · rcases rj.finish F with ⟨rj', _ | e | _ | _⟩
          · exact h
          · exact ⟨h.1, trivial⟩
          · trivial
          · trivial
      · exact ⟨h.1, trivial⟩
    · trivial
    · trivial

theorem mainLoop_tells (hC : Speaks cb I Q) (hQ : ∀ m ∈ ownMessages, Q m) (F : Nat) (opt : Options) : ∀ (n : Nat) (b : Bool) (pos : Pos) (st : St β),
    Sane I R st → Tells I Q R (mainLoop F cb opt n b pos st) := by
  intro n
  induction n with
  | zero => intro b pos st _; trivial
  | succ n ih =>
    intro b pos st h
    rw [mainLoop]
    split
    · exact h
    · have := turn_tells hC hQ F opt pos h
      revert this
      rcases turn F cb opt pos st with ⟨st', p | r⟩
      · intro h1; exact ih _ _ _ h1
      · exact id

/-- The scan keeps `I`, and its error has a message in `Q`. -/
theorem scan_tells (hC : Speaks cb I Q) (hQ : ∀ m ∈ ownMessages, Q m) (n F : Nat) (opt : Options) {st : St β} (h : Sane I R st) :
    Tells I Q R (scan n F cb opt st) := by
  unfold scan
  rcases hp : st.pool.pushAssoc posLayout [Pos.top.byte] nameTop with ⟨p, v | e | _⟩
  · exact mainLoop_tells hC hQ F opt n _ _ _ (Sane.push (rj := st.rj) h nameTop_clear hp)
  · exact ⟨h.1, Nat.zero_le _⟩
  · trivial

end

end Verif.Scan
