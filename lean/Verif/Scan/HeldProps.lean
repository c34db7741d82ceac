import Verif.RJiter.Held
import Verif.Scan.HeldSpec
import Verif.Scan.WholeSoundProps

/-!
# A value that was returned does not change (C70)
-/

namespace Verif.Scan

open Verif.RJiter

/-- A string without escapes stands for itself. -/
theorem strBody_same {body : Bytes} {chars : List Char} (h : StrBody true body chars) (h92 : 92 ∉ body) : encAll chars = body := by
  induction h with
  | nil => rfl
  | char ch r s _ _ ih =>
    rw [List.mem_append] at h92
    have := ih fun hm => h92 (.inr hm)
    rw [← this]
    simp [encAll]
  | esc => simp at h92
  | uni => simp at h92
  | pair => simp at h92

theorem cow_same {mem a body s t : Bytes} {off : Nat} (hm : mem = a ++ (body ++ t)) (ho : off = a.length)
    (hs : ∃ chars, StrBody true body chars ∧ s = encAll chars) : cow mem off body s = s := by
  obtain ⟨chars, h, rfl⟩ := hs
  unfold cow
  split
  · rfl
  · rename_i h92
    rw [hm, ho, List.drop_left, List.take_left, strBody_same h h92]

mutual
theorem Val.seen_same {mem : Bytes} : ∀ (v : Val) (x : JsonValue) (a t : Bytes) (off : Nat), v.Gives .value .value x →
    mem = a ++ (v.text ++ t) → off = a.length → v.seen mem off x = x
  | .atom tok, x, a, t, off, hg, hm, ho => by
    cases hg with
    | null => rfl
    | true => rfl
    | false => rfl
    | number h hn => rfl
    | string body s h =>
      simp only [Build.value, Val.seen]
      congr 1
      have e : ((34 :: (body ++ [34])).drop 1).dropLast = body := by simp
      rw [e]
      refine cow_same (a := a ++ [34]) (t := 34 :: t) ?_ (by simp [ho]) h
      rw [hm]; simp [Val.text]
  | .arr w items, x, a, t, off, hg, hm, ho => by
    obtain ⟨_, l, hl, rfl⟩ := hg
    simp only [Build.value, Val.seen]
    rw [Items.seen_same items l (a ++ 91 :: w) (93 :: t) _ hl (.inl (by rw [hm]; simp [Val.text])) (by simp [ho])]
  | .obj w members, x, a, t, off, hg, hm, ho => by
    obtain ⟨_, l, hl, rfl⟩ := hg
    simp only [Build.value, Val.seen]
    rw [Members.seen_same members l (a ++ 123 :: w) (125 :: t) _ hl (.inl (by rw [hm]; simp [Val.text])) (by simp [ho])]
theorem Items.seen_same {mem : Bytes} : ∀ (v : Items) (x : List JsonValue) (a t : Bytes) (off : Nat), v.Gives .value .value x →
    (mem = a ++ (v.text ++ t) ∨ ∃ a', a = a' ++ [44] ∧ mem = a' ++ (v.textMore ++ t)) → off = a.length → v.seen mem off x = x
  | .nil, x, a, t, off, hg, hm, ho => by simp only [Items.seen]
  | .cons b v c more, x, a, t, off, hg, hm, ho => by
    obtain ⟨_, _, x, l, h1, h2, rfl⟩ := hg
    have hm : mem = a ++ (b ++ (v.text ++ (c ++ (more.textMore ++ t)))) := by
      rcases hm with hm | ⟨a', rfl, hm⟩
      · rw [hm]; simp [Items.text]
      · rw [hm]; simp [Items.textMore]
    simp only [Items.seen]
    rw [Val.seen_same v x (a ++ b) (c ++ (more.textMore ++ t)) _ h1 (by rw [hm]; simp) (by simp [ho])]
    congr 1
    cases more with
    | nil => simp only [Items.seen]
    | cons b' v' c' more' =>
      exact Items.seen_same (.cons b' v' c' more') l (a ++ (b ++ (v.text ++ (c ++ [44])))) t _ h2
        (.inr ⟨a ++ (b ++ (v.text ++ c)), by simp, by rw [hm]; simp⟩) (by simp [ho])
theorem Members.seen_same {mem : Bytes} : ∀ (v : Members) (x : List (Bytes × JsonValue)) (a t : Bytes) (off : Nat),
    v.Gives .value .value x →
    (mem = a ++ (v.text ++ t) ∨ ∃ a', a = a' ++ [44] ∧ mem = a' ++ (v.textMore ++ t)) → off = a.length → v.seen mem off x = x
  | .nil, x, a, t, off, hg, hm, ho => by simp only [Members.seen]
  | .cons b k m m' v c more, x, a, t, off, hg, hm, ho => by
    obtain ⟨_, _, _, _, key, x, l, h0, h1, h2, rfl⟩ := hg
    have hm : mem = a ++ (b ++ 34 :: (k ++ 34 :: (m ++ 58 :: (m' ++ (v.text ++ (c ++ (more.textMore ++ t))))))) := by
      rcases hm with hm | ⟨a', rfl, hm⟩
      · rw [hm]; simp [Members.text]
      · rw [hm]; simp [Members.textMore]
    simp only [Members.seen]
    rw [Val.seen_same v x (a ++ (b ++ 34 :: (k ++ 34 :: (m ++ 58 :: m')))) (c ++ (more.textMore ++ t)) _ h1 (by rw [hm]; simp) (by simp [ho]; omega),
      cow_same (a := a ++ (b ++ [34])) (t := 34 :: (m ++ 58 :: (m' ++ (v.text ++ (c ++ (more.textMore ++ t)))))) (by rw [hm]; simp) (by simp [ho]) h0]
    congr 1
    cases more with
    | nil => simp only [Members.seen]
    | cons b' k' n n' v' c' more' =>
      exact Members.seen_same (.cons b' k' n n' v' c' more') l (a ++ (b ++ 34 :: (k ++ 34 :: (m ++ 58 :: (m' ++ (v.text ++ (c ++ [44]))))))) t _ h2
        (.inr ⟨a ++ (b ++ 34 :: (k ++ 34 :: (m ++ 58 :: (m' ++ (v.text ++ c))))), by simp, by rw [hm]; simp⟩) (by simp [ho]; omega)
end

/-- **C70, partial.** Full statement: without `s''.b.nShifted = s'.b.nShifted`. It is false, see `C70_overwritten`. A value that `next_value` returned is
in the buffer just in front of the position, and what its owner sees does not change during any later calls, whatever their
outcome, as long as these shift nothing out of the buffer. -/
theorem C70_unchanged_partial (s : RJ) (fuel : Nat) (h : s.Sync) (hl : 2 ≤ s.b.buf.length) (hf : enoughFuel s fuel)
    (s' : RJ) (x : JsonValue) (hok : s.nextValue fuel = (s', .ok x)) :
    ∃ (v : Val) (off : Nat), v.Gives .value .value x ∧ off + v.text.length = s'.jidx ∧
      (s'.b.buf.drop off).take v.text.length = v.text ∧
      ∀ s'', Calls s' s'' → s''.b.nShifted = s'.b.nShifted → v.seen s''.b.buf off x = x := by
  have hrun : (Op.nextValue).run fuel s = (s', .ok ()) := by
    simp only [Op.run, hok, Res.void]
  have hsync : s'.Sync := by
    have := (Op.run_res .nextValue s fuel h hl hf).2
    rw [hrun] at this
    obtain ⟨_, hm⟩ := this (.ok _)
    exact hm.sync
  obtain ⟨k, n, h1, h2⟩ := RJ.loopUntilSuccess_readAt hok
  obtain ⟨ws, v, t, h3, _, h4, h5, _⟩ := nextWhole_says says_value h1
  rw [hsync.len] at h3
  have hidx := hsync.idx
  have hlen := RJiter.Buffer.valid_length hsync.ok
  have hv : s'.b.valid = (s'.b.valid.take k ++ ws) ++ (v.text ++ t) := by
    rw [List.append_assoc, ← h3]
    exact (List.take_append_drop _ _).symm
  have hoff : (s'.b.valid.take k ++ ws).length = k + ws.length := by
    rw [List.length_append, List.length_take]; omega
  have hbuf : ∀ b : RJiter.Buffer, s'.b.valid <+: b.valid → ∃ t', b.buf = (s'.b.valid.take k ++ ws) ++ (v.text ++ t') := by
    rintro b ⟨e, hb⟩
    refine ⟨t ++ (e ++ b.buf.drop b.nBytes), ?_⟩
    have h6 : b.buf = b.valid ++ b.buf.drop b.nBytes := (List.take_append_drop _ _).symm
    rw [← List.append_assoc t, ← List.append_assoc v.text, ← List.append_assoc v.text, ← List.append_assoc (_ ++ ws), ← List.append_assoc (_ ++ ws),
      ← hv, hb]
    exact h6
  refine ⟨v, k + ws.length, h5, by omega, ?_, ?_⟩
  · obtain ⟨t', e⟩ := hbuf s'.b List.prefix_rfl
    rw [e, ← hoff, List.drop_left, List.take_left]
  · intro s'' hc hs
    obtain ⟨t', e⟩ := hbuf s''.b (hc.reach.prefix hsync.ok hs)
    exact Val.seen_same v x _ t' _ h5 e hoff.symm

/-- `"ab" "cd" `: both values are read from what is in the buffer, and the first one does not change. -/
def exHeld : RJ := .new [.data 34 [97, 98, 34, 32, 34, 99, 100, 34, 32]] (List.replicate 16 0)

example : ∃ s' x, exHeld.nextValue 40 = (s', .ok x) ∧ x = .str [97, 98] ∧ Calls s' (Op.nextValue.run 40 s').1 ∧
    (Op.nextValue.run 40 s').1.b.nShifted = s'.b.nShifted :=
  ⟨_, _, rfl, rfl, .cons _ _ (.nil _), rfl⟩

/-- **C70, the false part.** The stream is `"xy" ` and then, in the next chunk, `"aé" `. The first call of `next_value` returns the
string `xy`. After the second call the owner of this string sees the bytes of `a` and a half `é`, which is not UTF-8. -/
theorem C70_overwritten : ∃ s s1 s2 : RJ, s = .new [.data 34 [120, 121, 34, 32], .data 34 [97, 195, 169, 34, 32]] (List.replicate 16 0) ∧
    ∃ (v : Val) (off : Nat), v.Gives .value .value (.str [120, 121]) ∧
    (s1.b.buf.drop off).take v.text.length = v.text ∧ off + v.text.length = s1.jidx ∧
    (∀ fuel, 20 ≤ fuel → s.nextValue fuel = (s1, .ok (.str [120, 121])) ∧ s1.nextValue fuel = (s2, .ok (.str [97, 195, 169]))) ∧
    v.seen s1.b.buf off (.str [120, 121]) = .str [120, 121] ∧
    v.seen s2.b.buf off (.str [120, 121]) = .str [97, 195] := by
  refine ⟨_, ⟨⟨[.data 34 [97, 195, 169, 34, 32]], [34, 120, 121, 34, 32, 0, 0, 0, 0, 0, 0, 0, 0, 0, 0, 0], 5, 0, 0, 0⟩, 5, 4⟩,
    ⟨⟨[], [34, 97, 195, 169, 34, 32, 32, 0, 0, 0, 0, 0, 0, 0, 0, 0], 6, 5, 0, 5⟩, 6, 5⟩, rfl, .atom [34, 120, 121, 34], 0, ?g, ?h1, ?h2, ?run, ?e1, ?e2⟩
  case run =>
    intro fuel hf
    obtain ⟨fuel, rfl⟩ : ∃ m, fuel = m + 20 := ⟨fuel - 20, by omega⟩
    constructor
    · exact rfl
    · exact rfl
  case g =>
    exact AtomGives.string [120, 121] [120, 121] ⟨['x', 'y'], by
      have := plain_body ['x', 'y'] (by simp [PlainChar]); exact this, rfl⟩
  all_goals exact rfl

end Verif.Scan
