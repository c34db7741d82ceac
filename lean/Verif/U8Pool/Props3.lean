import Verif.U8Pool.Props

/-!
# Properties C104 and C105 of `u8pool`

How much a pool holds, and what the errors of `push_assoc` and `replace_top_assoc_bytes` say.
-/

namespace Verif.U8Pool

/-! ## C104 -/

/-- The number of bytes of some byte strings. -/
def total : List Bytes → Nat
  | [] => 0
  | b :: bs => b.length + total bs

/-- Without padding, it is the total that is used. -/
theorem usedBy_plain (l : List Bytes) : usedBy (l.map fun b => ⟨0, b⟩) = total l := by
  induction l with
  | nil => rfl
  | cons b bs ih => simp [usedBy, total, ih]

/-- The reference, filled by `push`. -/
theorem Spec.run_pushes : ∀ (l : List Bytes) (s : Spec), s.slots = s.maxSlices → s.cap ≤ 65535 → s.items.length ≤ s.maxSlices →
    usedBy s.items ≤ s.cap →
    if s.items.length + l.length ≤ s.maxSlices ∧ usedBy s.items + total l ≤ s.cap then
      (s.run (l.map .push)).2 = l.map .bytes ∧ (s.run (l.map .push)).1.contents = s.contents ++ l
    else ∃ e, .err e ∈ (s.run (l.map .push)).2
  | [], s, _, _, h1, h2 => by simp [Spec.run, h1, h2, total]
  | b :: l, s, hs, hc, h1, h2 => by
    have hpad : Spec.padFor (usedBy s.items) Layout.unit.align = 0 := by simp [Spec.padFor, Layout.unit, Nat.mod_one]
    by_cases hfull : s.maxSlices ≤ s.items.length
    · rw [if_neg (by simp only [List.length_cons]; omega)]
      exact ⟨.sliceLimitExceeded s.maxSlices, by simp [Spec.run, Spec.step, Spec.push, hfull]⟩
    by_cases hroom : s.cap - usedBy s.items < b.length
    · rw [if_neg (by simp only [total]; omega)]
      exact ⟨.bufferOverflow b.length (s.cap - usedBy s.items), by simp [Spec.run, Spec.step, Spec.push, hfull, hpad, hroom]⟩
    have hstep : s.step (.push b) = ({ s with items := s.items ++ [⟨0, b⟩] }, .bytes b) := by
      simp only [Spec.step, Spec.push, hpad, List.length_nil, Nat.zero_add, Nat.add_zero, u16Max, List.nil_append]
      rw [if_neg hfull, if_neg hroom, if_neg (by omega), if_neg (by omega), if_neg (by omega)]
    have ih := Spec.run_pushes l { s with items := s.items ++ [⟨0, b⟩] } hs hc (by simp; omega) (by simp [usedBy_append, usedBy]; omega)
    simp only [List.map_cons, Spec.run, hstep]
    simp only [List.length_append, List.length_cons, List.length_nil, usedBy_append, usedBy] at ih
    have e1 : s.items.length + (0 + 1) + l.length = s.items.length + (l.length + 1) := by omega
    have e2 : usedBy s.items + (0 + b.length + 0) + total l = usedBy s.items + (b.length + total l) := by omega
    rw [e1, e2] at ih
    split at ih
    · rename_i hfits
      rw [if_pos (by simp only [List.length_cons, total]; exact hfits)]
      refine ⟨by rw [ih.1], ?_⟩
      rw [ih.2]; simp [Spec.contents]
    · rename_i hfits
      rw [if_neg (by simp only [List.length_cons, total]; exact hfits)]
      obtain ⟨e, he⟩ := ih
      exact ⟨e, List.mem_cons_of_mem _ he⟩

/-- **C104, partial** (full statement: without the bound on the size of the buffer; it is false, see `C104_large`). A new pool for
`m` slices in a buffer of `n` bytes takes a sequence of byte strings, pushed one after the other, exactly if there are at
most `m` of them, with at most `n - 4 * m` bytes in all. It then holds them all. -/
theorem C104_capacity_partial (buffer : Bytes) (m : Nat) (hm : m * 4 < 2 ^ 64) (p0 : Pool) (hnew : new buffer m = .ok p0)
    (hcap : buffer.length - 4 * m ≤ 65535) (l : List Bytes) :
    ((∀ e, .err e ∉ (run p0 (l.map .push)).2) ↔ l.length ≤ m ∧ total l ≤ buffer.length - 4 * m) ∧
    (l.length ≤ m → total l ≤ buffer.length - 4 * m →
      (run p0 (l.map .push)).2 = l.map .bytes ∧ Shows (run p0 (l.map .push)).1 l) := by
  have ht : ∀ o ∈ l.map Op.push, o.Typed := by
    intro o ho
    obtain ⟨b, -, rfl⟩ := List.mem_map.mp ho
    trivial
  obtain ⟨hout, hrel⟩ := (Rel.new hnew).run (l.map .push) ht
  have hmod : (m * 4) % 2 ^ 64 = m * 4 := Nat.mod_eq_of_lt hm
  have key := Spec.run_pushes l (Spec.init buffer.length m) (by simp only [Spec.init, hmod]; omega)
    (by simp only [Spec.init, hmod]; omega) (by simp [Spec.init]) (by simp [Spec.init, usedBy])
  have hsh := hrel.shows
  generalize hR : (Spec.init buffer.length m).run (l.map .push) = R at *
  simp only [Spec.init, hmod, List.length_nil, usedBy, Nat.zero_add, Spec.contents, List.map_nil, List.nil_append] at key
  rw [Nat.mul_comm m 4] at key
  split at key
  · rename_i hfits
    refine ⟨⟨fun _ => hfits, fun _ e he => ?_⟩, fun _ _ => ⟨by rw [hout, key.1], ?_⟩⟩
    · rw [hout, key.1] at he
      obtain ⟨b, -, hb⟩ := List.mem_map.mp he
      exact absurd hb (by simp)
    · rw [Spec.contents, key.2] at hsh
      exact hsh
  · rename_i hfits
    obtain ⟨e, he⟩ := key
    refine ⟨⟨fun h => absurd (hout ▸ he) (h e), fun h => absurd h hfits⟩, fun h1 h2 => absurd ⟨h1, h2⟩ hfits⟩

/-- The hypotheses of C104 can be met, and both answers occur: `44` bytes for `4` slices. -/
example : (∃ p0, new (List.replicate 44 0) 4 = .ok p0 ∧ (run p0 ([[1, 2], [], [3]].map .push)).2 = [.bytes [1, 2], .bytes [], .bytes [3]] ∧
      (run p0 ([[1, 2], List.replicate 27 5].map .push)).2 = [.bytes [1, 2], .err (.bufferOverflow 27 26)]) ∧
    (List.replicate 44 (0 : UInt8)).length - 4 * 4 ≤ 65535 := by
  exact ⟨⟨_, rfl, by decide, by decide⟩, by decide⟩

/-- **C104, the false part.** In a large buffer with room for it, an empty slice is refused, if there are more than 65535 bytes in
front of it. -/
theorem C104_large : ∃ (buffer : Bytes) (p0 : Pool) (l : List Bytes), new buffer 3 = .ok p0 ∧ l.length ≤ 3 ∧ total l ≤ buffer.length - 4 * 3 ∧
    ((run p0 (l.map .push)).1.push []).2 = .err (.valueTooLarge 65536 65535) := by
  obtain ⟨buffer, hb⟩ : ∃ b : Bytes, b.length = 70000 := ⟨List.replicate 70000 0, List.length_replicate⟩
  obtain ⟨d, hd⟩ : ∃ d : Bytes, d.length = 32768 := ⟨List.replicate 32768 0, List.length_replicate⟩
  obtain ⟨p0, hp0⟩ : ∃ p0, new buffer 3 = .ok p0 := by
    have hne : buffer ≠ [] := by intro e; simp [e] at hb
    have hlen : ¬ buffer.length < 3 * descSize % 2 ^ 64 + 1 := by rw [hb]; decide
    unfold new
    rw [if_neg (by decide), if_neg hne]
    simp only [if_neg hlen]
    exact ⟨_, rfl⟩
  refine ⟨buffer, p0, [d, d], hp0, by simp, by simp [total, hd, hb], ?_⟩
  have hspec : ((Spec.init buffer.length 3).run ([d, d].map .push)).1 =
      { cap := 69988, maxSlices := 3, slots := 3, items := [⟨0, d⟩, ⟨0, d⟩] } := by
    simp [hb, Spec.init, Spec.run, Spec.step, Spec.push, Spec.padFor, Layout.unit, usedBy, hd, u16Max, Nat.mod_one]
  have h := C02_push_outcome buffer 3 (by decide) p0 hp0 ([d, d].map .push) (by simp [Op.Typed]) []
  have hu : usedBy ((Spec.init buffer.length 3).run ([d, d].map .push)).1.items = 65536 := by rw [hspec]; simp [usedBy, hd]
  obtain ⟨_, _, _, _, h3, _⟩ := h
  rw [hu] at h3
  have hlen : (run p0 ([d, d].map .push)).1.len = 2 := by
    have := ((Rel.new hp0).run ([d, d].map .push) (by simp [Op.Typed])).2.count
    rw [hspec] at this
    exact this
  exact h3 (by rw [hlen]; decide) (by simp) (by decide)

/-! ## C105 -/

/-- The number of bytes to skip in front of a value: the smallest number that makes the offset a multiple of the alignment. -/
def IsPadding (used align pad : Nat) : Prop := (used + pad) % align = 0 ∧ ∀ k, k < pad → (used + k) % align ≠ 0

theorem padFor_isPadding (used a : Nat) (ha : 0 < a) : IsPadding used a (Spec.padFor used a) := by
  unfold Spec.padFor
  have hlt := Nat.mod_lt used ha
  have hdiv := Nat.div_add_mod used a
  split
  · rename_i h
    exact ⟨by simpa using h, by omega⟩
  · rename_i h
    refine ⟨?_, ?_⟩
    · rw [show used + (a - used % a) = a * (used / a) + a by omega, Nat.add_mod_right, Nat.mul_mod_right]
    · intro k hk
      rw [show used + k = (used % a + k) + a * (used / a) by omega, Nat.add_mul_mod_self_left, Nat.mod_eq_of_lt (by omega)]
      omega

theorem IsPadding.unique {used a p q : Nat} (hp : IsPadding used a p) (hq : IsPadding used a q) : p = q := by
  rcases Nat.lt_trichotomy p q with h | h | h
  · exact absurd hp.1 (hq.2 p h)
  · exact h
  · exact absurd hq.1 (hp.2 q h)

/-- **C105**, `push_assoc`. After any history, the outcome is decided by these numbers: how many items there are, how many bytes
are free (`free`), and how many the padding, the value and the data need. -/
theorem C105_push_assoc_outcome (buffer : Bytes) (m : Nat) (hm : m * 4 < 2 ^ 64) (p0 : Pool)
    (hnew : new buffer m = .ok p0) (os : List Op) (ht : ∀ o ∈ os, o.Typed) (L : Layout) (ha : 0 < L.align) (v bs : Bytes)
    (hv : v.length = L.size) (pad : Nat) :
    let p := (run p0 os).1
    let used := usedBy ((Spec.init buffer.length m).run os).1.items
    let free := buffer.length - 4 * m - used
    let need := pad + L.size + bs.length
    IsPadding used L.align pad →
    (p.len = m → (p.pushAssoc L v bs).2 = .err (.sliceLimitExceeded m)) ∧
    (p.len ≠ m → free < need → (p.pushAssoc L v bs).2 = .err (.bufferOverflow need free)) ∧
    (p.len ≠ m → need ≤ free → 65535 < used + pad → (p.pushAssoc L v bs).2 = .err (.valueTooLarge (used + pad) 65535)) ∧
    (p.len ≠ m → need ≤ free → used + pad ≤ 65535 → 65535 < L.size + bs.length →
      (p.pushAssoc L v bs).2 = .err (.valueTooLarge (L.size + bs.length) 65535)) ∧
    (p.len ≠ m → need ≤ free → used + pad ≤ 65535 → L.size + bs.length ≤ 65535 → (p.pushAssoc L v bs).2 = .ok (v, bs)) := by
  intro p used free need
  simp only [p, used, free, need]
  clear p used free need
  have hr := ((Rel.new hnew).run os ht).2
  have hi := Spec.run_const os (Spec.init buffer.length m)
  generalize hS : (Spec.init buffer.length m).run os = R at *
  intro hp
  have hpad : Spec.padFor (usedBy R.1.items) L.align = pad := (padFor_isPadding _ _ ha).unique hp
  have hmod : (m * 4) % 2 ^ 64 = m * 4 := Nat.mod_eq_of_lt hm
  simp only [Spec.init, hmod] at hi
  have hcount := hr.count
  have hcl := hr.countLe
  have hd : m * 4 / 4 = m := by omega
  have hle : R.1.items.length ≤ m := by omega
  obtain ⟨p', s', r, e1, -, hcase⟩ := hr.pushAssoc L v bs hv
  have key : ((run p0 os).1.pushAssoc L v bs).2 = match (R.1.push L v bs).2 with
      | .ok () => .ok (v, bs)
      | .error e => .err e := by
    rcases hcase with ⟨e2, e3⟩ | ⟨er, e2, e3⟩ <;> simp [e1, e2, e3]
  rw [key]
  simp only [Spec.push, hpad, hv, Pool.len, hcount, hi.1, hi.2.1, hi.2.2, u16Max, Nat.mul_comm 4 m, hd, ← Nat.add_assoc]
  refine ⟨?_, ?_, ?_, ?_, ?_⟩
  · intro h1; rw [if_pos (by omega)]
  · intro h1 h2; rw [if_neg (by omega), if_pos h2]
  · intro h1 h2 h3; rw [if_neg (by omega), if_neg (by omega), if_pos (by omega)]
  · intro h1 h2 h3 h4
    rw [if_neg (by omega), if_neg (by omega), if_neg (by omega), if_pos h4]
  · intro h1 h2 h3 h4
    rw [if_neg (by omega), if_neg (by omega), if_neg (by omega), if_neg (by omega), if_neg (by omega)]

/-- **C105**, `replace_top_assoc_bytes`. After any history, the outcome depends on the last item: whether there is one, whether it
is long enough for a value of the type, and whether there is room for the new data behind that value (`room` is what is free plus
what the old data takes). -/
theorem C105_replace_outcome (buffer : Bytes) (m : Nat) (hm : m * 4 < 2 ^ 64) (p0 : Pool)
    (hnew : new buffer m = .ok p0) (os : List Op) (ht : ∀ o ∈ os, o.Typed) (L : Layout) (bs : Bytes) :
    let p := (run p0 os).1
    let used := usedBy ((Spec.init buffer.length m).run os).1.items
    let free := buffer.length - 4 * m - used
    (p.len = 0 → (p.replaceTopAssocBytes L bs).2 = .err (.indexOutOfBounds 0 0)) ∧
    ∀ top, p.top = .ok (some top) →
      (top.length < L.size → (p.replaceTopAssocBytes L bs).2 = .err (.invalidInitialization 4)) ∧
      (L.size ≤ top.length →
        let room := free + (top.length - L.size)
        (room < bs.length → (p.replaceTopAssocBytes L bs).2 = .err (.bufferOverflow bs.length room)) ∧
        (bs.length ≤ room → 65535 < L.size + bs.length →
          (p.replaceTopAssocBytes L bs).2 = .err (.valueTooLarge (L.size + bs.length) 65535)) ∧
        (bs.length ≤ room → L.size + bs.length ≤ 65535 → (p.replaceTopAssocBytes L bs).2 = .ok bs)) := by
  intro p used free
  simp only [p, used, free]
  clear p used free
  have hr := ((Rel.new hnew).run os ht).2
  have hi := Spec.run_const os (Spec.init buffer.length m)
  generalize hS : (Spec.init buffer.length m).run os = R at *
  have hmod : (m * 4) % 2 ^ 64 = m * 4 := Nat.mod_eq_of_lt hm
  simp only [Spec.init, hmod] at hi
  have hcount := hr.count
  have hused := hr.used
  obtain ⟨p', s', r, e1, -, hcase⟩ := hr.replaceTop L bs
  have key : ((run p0 os).1.replaceTopAssocBytes L bs).2 = match (R.1.replaceTop L bs).2 with
      | .ok () => .ok bs
      | .error e => .err e := by
    rcases hcase with ⟨e2, e3⟩ | ⟨er, e2, e3⟩ <;> simp [e1, e2, e3]
  rw [key]
  refine ⟨?_, ?_⟩
  · intro h0
    have : R.1.items = [] := List.length_eq_zero_iff.mp (by rw [← hcount]; exact h0)
    simp [Spec.replaceTop, this]
  intro top htop
  rw [hr.top] at htop
  have htop : R.1.items.getLast?.map (·.bytes) = some top := by simpa [Spec.contents] using htop
  obtain ⟨it, hit, rfl⟩ := Option.map_eq_some_iff.mp htop
  obtain ⟨ys, hys⟩ := List.getLast?_eq_some_iff.mp hit
  have hu : usedBy R.1.items = usedBy ys + (it.pad + it.bytes.length) := by
    rw [hys, usedBy_append]; simp [usedBy]
  refine ⟨?_, ?_⟩
  · intro h1
    simp [Spec.replaceTop, hit, Spec.split, h1]
  intro h1
  have hroom : R.1.cap - (usedBy R.1.items - (it.bytes.length - L.size)) =
      buffer.length - 4 * m - usedBy R.1.items + (it.bytes.length - L.size) := by omega
  simp only [Spec.replaceTop, hit, Spec.split, if_neg (Nat.not_lt.mpr h1), List.length_drop, hroom, u16Max]
  refine ⟨?_, ?_, ?_⟩
  · intro h2; rw [if_pos h2]
  · intro h2 h3; rw [if_neg (by omega), if_pos h3]
  · intro h2 h3; rw [if_neg (by omega), if_neg (by omega)]

/-- The hypotheses of C105 can be met: two bytes of padding, four of value. -/
example : let p0 : Pool := { maxSlices := 2, count := 0, desc := List.replicate 8 0, data := List.replicate 12 0 }
    new (List.replicate 20 0) 2 = .ok p0 ∧ IsPadding 2 4 2 ∧
    ((run p0 [.push [1, 2]]).1.pushAssoc ⟨4, 4⟩ [1, 2, 3, 4] [9, 9, 9, 9]).2 = .ok ([1, 2, 3, 4], [9, 9, 9, 9]) ∧
    ((run p0 [.push [1, 2]]).1.pushAssoc ⟨4, 4⟩ [1, 2, 3, 4] [9, 9, 9, 9, 9]).2 = .err (.bufferOverflow 11 10) ∧
    ((run p0 [.push [1, 2], .pushAssoc ⟨4, 4⟩ [1, 2, 3, 4] [9, 9]]).1.replaceTopAssocBytes ⟨4, 4⟩ [8, 8, 8, 8]).2 = .ok [8, 8, 8, 8] ∧
    ((run p0 [.push [1, 2], .pushAssoc ⟨4, 4⟩ [1, 2, 3, 4] [9, 9]]).1.replaceTopAssocBytes ⟨4, 4⟩ [8, 8, 8, 8, 8]).2 =
      .err (.bufferOverflow 5 4) := by
  refine ⟨by decide, ⟨by decide, by decide⟩, by decide, by decide, by decide, by decide⟩

/-! ## The texts of the errors -/

/-- `{n}` of a `usize`: the decimal digits. -/
def digits (n : Nat) : List Char := if n < 10 then [Char.ofNat (48 + n)] else digits (n / 10) ++ [Char.ofNat (48 + n % 10)]

/-- The reasons, core.rs lines 29, 35, 44 and 529. -/
def reason : Nat → String
  | 1 => "max_slices cannot be zero"
  | 2 => "buffer cannot be empty"
  | 3 => "buffer too small for the requested max_slices"
  | _ => "failed to get validated positions for top item"

/-- `impl Display for U8PoolError`, error.rs lines 37-69. -/
def PoolError.text : PoolError → List Char
  | .bufferOverflow r a => "Buffer overflow: requested ".toList ++ digits r ++ " bytes, but only ".toList ++ digits a ++ " bytes available".toList
  | .indexOutOfBounds i l => "Index out of bounds: index ".toList ++ digits i ++ " is beyond vector length ".toList ++ digits l
  | .invalidInitialization k => "Invalid U8Pool initialization: ".toList ++ (reason k).toList
  | .sliceLimitExceeded n => "Slice limit exceeded: maximum ".toList ++ digits n ++ " slices allowed".toList
  | .valueTooLarge v m => "Value too large: ".toList ++ digits v ++ " exceeds maximum of ".toList ++ digits m

/-- The errors that the code makes: there are four reasons. -/
def PoolError.Made : PoolError → Prop
  | .invalidInitialization k => 1 ≤ k ∧ k ≤ 4
  | _ => True

/-- A decimal digit. -/
def IsDigit (c : Char) : Prop := 48 ≤ c.toNat ∧ c.toNat ≤ 57

theorem digit_toNat {n : Nat} (h : n < 10) : (Char.ofNat (48 + n)).toNat = 48 + n := by
  rcases n with _ | _ | _ | _ | _ | _ | _ | _ | _ | _ | n <;> first | rfl | omega

theorem digits_all (n : Nat) : ∀ c ∈ digits n, IsDigit c := by
  induction n using Nat.strongRecOn with
  | _ n ih =>
    intro c hc
    rw [digits] at hc
    split at hc
    · rename_i h
      rw [List.mem_singleton] at hc
      subst hc
      unfold IsDigit
      rw [digit_toNat h]
      omega
    · rename_i h
      rcases List.mem_append.mp hc with hc | hc
      · exact ih (n / 10) (by omega) c hc
      · rw [List.mem_singleton] at hc
        subst hc
        unfold IsDigit
        rw [digit_toNat (by omega)]
        omega

/-- What digits mean. -/
def numberOf (l : List Char) : Nat := l.foldl (fun k c => 10 * k + (c.toNat - 48)) 0

theorem numberOf_digits (n : Nat) : numberOf (digits n) = n := by
  induction n using Nat.strongRecOn with
  | _ n ih =>
    rw [digits]
    split
    · rename_i h
      simp only [numberOf, List.foldl_cons, List.foldl_nil, digit_toNat h]; omega
    · have := ih (n / 10) (by omega)
      simp only [numberOf] at this ⊢
      rw [List.foldl_append, this]
      simp only [List.foldl_cons, List.foldl_nil, digit_toNat (show n % 10 < 10 by omega)]; omega

/-- Where the digits end, is seen from the character behind them. -/
theorem digits_split {n k : Nat} {a b : List Char} (ha : ∀ c, a.head? = some c → ¬ IsDigit c) (hb : ∀ c, b.head? = some c → ¬ IsDigit c)
    (h : digits n ++ a = digits k ++ b) : n = k ∧ a = b := by
  have key : ∀ (x y a b : List Char), (∀ c ∈ x, IsDigit c) → (∀ c ∈ y, IsDigit c) → (∀ c, a.head? = some c → ¬ IsDigit c) →
      (∀ c, b.head? = some c → ¬ IsDigit c) → x ++ a = y ++ b → x = y ∧ a = b := by
    intro x
    induction x with
    | nil =>
      intro y a b _ hy ha _ h
      cases y with
      | nil => exact ⟨rfl, h⟩
      | cons c y =>
        rw [List.nil_append] at h
        exact absurd (hy c List.mem_cons_self) (ha c (by rw [h]; rfl))
    | cons d x ih =>
      intro y a b hx hy ha hb h
      cases y with
      | nil =>
        rw [List.nil_append] at h
        exact absurd (hx d List.mem_cons_self) (hb d (by rw [← h]; rfl))
      | cons c y =>
        simp only [List.cons_append, List.cons.injEq] at h
        obtain ⟨h1, h2⟩ := ih y a b (fun c hc => hx c (List.mem_cons_of_mem _ hc)) (fun c hc => hy c (List.mem_cons_of_mem _ hc)) ha hb h.2
        exact ⟨by rw [h.1, h1], h2⟩
  obtain ⟨h1, h2⟩ := key _ _ a b (digits_all n) (digits_all k) ha hb h
  exact ⟨by rw [← numberOf_digits n, h1, numberOf_digits], h2⟩

/-- The text does not start with a digit. -/
def Plain (t : List Char) : Prop := ∀ c, t.head? = some c → ¬ IsDigit c

instance (t : List Char) : Decidable (Plain t) :=
  decidable_of_iff (t.head?.all fun c => decide (¬ (48 ≤ c.toNat ∧ c.toNat ≤ 57))) (by
    unfold Plain IsDigit
    cases t with
    | nil => simp
    | cons c r => simp only [List.head?_cons, Option.all_some, decide_eq_true_eq, Option.some.injEq, forall_eq'])

/-- What is between the numbers can be cancelled. -/
theorem one_number {a b : List Char} {n n' : Nat} (hb : Plain b) (h : a ++ digits n ++ b = a ++ digits n' ++ b) : n = n' := by
  rw [List.append_assoc, List.append_assoc] at h
  exact (digits_split hb hb (List.append_cancel_left h)).1

@[inherit_doc one_number]
theorem two_numbers {a b d : List Char} {n n' k k' : Nat} (hb : Plain b) (hne : b ≠ []) (hd : Plain d)
    (h : a ++ digits n ++ b ++ digits k ++ d = a ++ digits n' ++ b ++ digits k' ++ d) : n = n' ∧ k = k' := by
  simp only [List.append_assoc] at h
  have hp : ∀ x, Plain (b ++ x) := by
    intro x c hc
    cases b with
    | nil => exact absurd rfl hne
    | cons y ys => exact hb c hc
  obtain ⟨h1, h2⟩ := digits_split (hp _) (hp _) (List.append_cancel_left h)
  exact ⟨h1, (digits_split hd hd (List.append_cancel_left h2)).1⟩

theorem third {a t : List Char} {c : Char} (h : a[2]? = some c) : (a ++ t)[2]? = some c := by
  rw [List.getElem?_append_left (by rw [List.getElem?_eq_some_iff] at h; exact h.1)]
  exact h

/-- The third letter tells the errors apart. -/
def PoolError.letter : PoolError → Char
  | .bufferOverflow .. => 'f'
  | .indexOutOfBounds .. => 'd'
  | .invalidInitialization _ => 'v'
  | .sliceLimitExceeded _ => 'i'
  | .valueTooLarge .. => 'l'

theorem PoolError.text_letter : ∀ e : PoolError, e.text[2]? = some e.letter
  | .bufferOverflow _ _ => third (third (third (third (a := "Buffer overflow: requested ".toList) (c := 'f') (by decide +kernel))))
  | .indexOutOfBounds _ _ => third (third (third (a := "Index out of bounds: index ".toList) (c := 'd') (by decide +kernel)))
  | .invalidInitialization _ => third (a := "Invalid U8Pool initialization: ".toList) (c := 'v') (by decide +kernel)
  | .sliceLimitExceeded _ => third (third (a := "Slice limit exceeded: maximum ".toList) (c := 'i') (by decide +kernel))
  | .valueTooLarge _ _ => third (third (third (a := "Value too large: ".toList) (c := 'l') (by decide +kernel)))

/-- **C105**, the texts. The text of an error says which error it is, and which numbers are in it: different errors have different
texts. -/
theorem C105_text (e e' : PoolError) (h : e.Made) (h' : e'.Made) (ht : e.text = e'.text) : e = e' := by
  have h3 : e.letter = e'.letter := by
    have := e.text_letter.symm.trans ((congrArg (·[2]?) ht).trans e'.text_letter)
    exact Option.some.inj this
  cases e <;> cases e' <;> simp [PoolError.letter] at h3
  case bufferOverflow.bufferOverflow r a r' a' =>
    obtain ⟨rfl, rfl⟩ := two_numbers (b := " bytes, but only ".toList) (d := " bytes available".toList) (by decide +kernel)
      (by decide +kernel) (by decide +kernel) ht
    rfl
  case indexOutOfBounds.indexOutOfBounds i l i' l' =>
    obtain ⟨rfl, rfl⟩ := two_numbers (a := "Index out of bounds: index ".toList) (b := " is beyond vector length ".toList) (d := [])
      (n := i) (k := l) (n' := i') (k' := l')
      (by decide +kernel) (by decide +kernel) (by decide +kernel) (by rw [List.append_nil, List.append_nil]; exact ht)
    rfl
  case invalidInitialization.invalidInitialization k k' =>
    have ht := List.append_cancel_left (as := "Invalid U8Pool initialization: ".toList) ht
    obtain ⟨a1, a2⟩ := h
    obtain ⟨b1, b2⟩ := h'
    have hk : k = 1 ∨ k = 2 ∨ k = 3 ∨ k = 4 := by omega
    have hk' : k' = 1 ∨ k' = 2 ∨ k' = 3 ∨ k' = 4 := by omega
    rcases hk with rfl | rfl | rfl | rfl <;> rcases hk' with rfl | rfl | rfl | rfl <;>
      first | rfl | exact absurd ht (by decide +kernel)
  case sliceLimitExceeded.sliceLimitExceeded n n' =>
    obtain rfl := one_number (a := "Slice limit exceeded: maximum ".toList) (b := " slices allowed".toList) (by decide +kernel) ht
    rfl
  case valueTooLarge.valueTooLarge v m v' m' =>
    obtain ⟨rfl, rfl⟩ := two_numbers (a := "Value too large: ".toList) (b := " exceeds maximum of ".toList) (d := [])
      (n := v) (k := m) (n' := v') (k' := m')
      (by decide +kernel) (by decide +kernel) (by decide +kernel) (by rw [List.append_nil, List.append_nil]; exact ht)
    rfl

/-- One of the texts, and that these errors are made. -/
example : (PoolError.bufferOverflow 27 26).text = "Buffer overflow: requested 27 bytes, but only 26 bytes available".toList ∧
    (PoolError.bufferOverflow 27 26).Made ∧ (PoolError.invalidInitialization 4).Made ∧
    (PoolError.bufferOverflow 27 26).text ≠ (PoolError.bufferOverflow 2 726).text :=
  ⟨by decide +kernel, trivial, ⟨by decide, by decide⟩, by decide +kernel⟩

end Verif.U8Pool
