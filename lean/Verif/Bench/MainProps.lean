import Verif.Bench.MainLemmas
import Verif.Ddb.Levels

/-!
# What the benchmark's program does with streams of documents (C86)
-/

namespace Verif.Bench

open Verif.RJiter Verif.Scan Verif.Ddb

variable {ν : Type}

/-! ## Specification -/

/-- What is assumed of `serde_json::from_str`: it takes one document between spaces and nothing else, and takes it for what it stands for (`Stands`).
It refuses documents of more than 127 levels. -/
structure Serde.Real (S : Serde ν) : Prop where
  sound : ∀ t x, S.read t = some x → ∃ w v w', Spaces w ∧ Spaces w' ∧ t = w ++ (v.text ++ w') ∧ Stands S.toNumbers v x
  complete : ∀ w v w' x, Spaces w → Spaces w' → Stands S.toNumbers v x → levels v ≤ 127 → S.read (w ++ (v.text ++ w')) = some x

/-- The conversion that is asked for. -/
def Args.conv (a : Args) (N : Numbers ν) (x : Value ν) : Except Fault (Value ν) :=
  if a.toDdb then toDynamodb N (!a.withoutItem) x else fromDynamodb N x

/-- The values, each with a newline behind it. -/
def printed (S : Serde ν) (a : Args) : List (Value ν) → Bytes
  | [] => []
  | y :: ys => (if a.pretty then S.pretty y else S.compact y) ++ 10 :: printed S a ys

/-- The lists have the same length, and `R` is between their items. -/
def Each {α β : Type} (R : α → β → Prop) : List α → List β → Prop
  | [], [] => True
  | a :: l, b :: l' => R a b ∧ Each R l l'
  | _, _ => False

/-! ## Lists -/

theorem Each.imp {α β : Type} {R Q : α → β → Prop} : ∀ {l : List α} {l' : List β}, (∀ a ∈ l, ∀ b, R a b → Q a b) → Each R l l' → Each Q l l'
  | [], [], _, _ => trivial
  | a :: _, b :: _, h, ⟨h1, h2⟩ => ⟨h a (by simp) b h1, Each.imp (fun x hx => h x (by simp [hx])) h2⟩

theorem Each.map {α β γ : Type} {R : γ → β → Prop} (f : α → γ) : ∀ {l : List α} {l' : List β}, Each (fun a b => R (f a) b) l l' → Each R (l.map f) l'
  | [], [], _ => trivial
  | _ :: _, _ :: _, ⟨h1, h2⟩ => ⟨h1, Each.map f h2⟩

theorem Each.choose {α β : Type} {R : α → β → Prop} : ∀ {l : List α}, (∀ a ∈ l, ∃ b, R a b) → ∃ l', Each R l l'
  | [], _ => ⟨[], trivial⟩
  | a :: _, h => by
    obtain ⟨b, hb⟩ := h a (by simp)
    obtain ⟨l', hl⟩ := Each.choose fun x hx => h x (List.mem_cons_of_mem _ hx)
    exact ⟨b :: l', hb, hl⟩

/-! ## One document -/

variable {S : Serde ν} {a : Args}

/-- The text `t` is read, and converted into `y`. -/
def Turns (S : Serde ν) (a : Args) (t : Bytes) (y : Value ν) : Prop := ∃ x, S.read t = some x ∧ a.conv S.toNumbers x = .ok y

theorem one_ok {bad : Stop} {t : Bytes} {y : Value ν} (h : Turns S a t y) : one S a bad t = .ok ((if a.pretty then S.pretty y else S.compact y) ++ [10]) := by
  obtain ⟨x, h1, h2⟩ := h
  unfold Args.conv at h2
  unfold one
  rw [h1]
  simp only
  rw [h2]

theorem one_inv {bad : Stop} {t o : Bytes} (h : one S a bad t = .ok o) : ∃ y, Turns S a t y ∧ o = (if a.pretty then S.pretty y else S.compact y) ++ [10] := by
  unfold one at h
  split at h
  · cases h
  · rename_i x hx
    split at h
    · cases h
    · rename_i y hy
      cases h
      exact ⟨y, ⟨x, hx, hy⟩, rfl⟩

/-! ## Lines -/

theorem eachLine_ok : ∀ (ls : List Bytes) (n : Nat) (ys : List (Value ν)), (∀ l ∈ ls, Jiter.utf8Valid l = true) → Each (Turns S a) (inked ls) ys →
    eachLine S a n ls = (printed S a ys, none)
  | [], _, [], _, _ => rfl
  | [], _, _ :: _, _, h => h.elim
  | l :: ls, n, ys, hu, h => by
    rw [inked_cons] at h
    unfold eachLine
    rw [if_neg (by rw [hu l (by simp)]; nofun)]
    split at h
    · rename_i ht
      rw [if_pos ht]
      exact eachLine_ok ls _ ys (fun x hx => hu x (by simp [hx])) h
    · rename_i ht
      rw [if_neg ht]
      rcases ys with _ | ⟨y, ys⟩
      · exact h.elim
      · rw [one_ok h.1]
        simp only
        rw [eachLine_ok ls _ ys (fun x hx => hu x (by simp [hx])) h.2]
        simp [printed]

theorem eachLine_inv : ∀ (ls : List Bytes) (n : Nat) {out : Bytes}, eachLine S a n ls = (out, none) → ∃ ys, Each (Turns S a) (inked ls) ys ∧ out = printed S a ys
  | [], _, _, h => by
    cases h
    exact ⟨[], trivial, rfl⟩
  | l :: ls, n, out, h => by
    unfold eachLine at h
    rw [inked_cons]
    split at h
    · cases h
    split at h
    · rename_i ht
      rw [if_pos ht]
      exact eachLine_inv ls _ h
    · rename_i ht
      rw [if_neg ht]
      split at h
      · cases h
      · rename_i o ho
        rcases e : eachLine S a (n + 1) ls with ⟨more, r⟩
        rw [e] at h
        cases h
        obtain ⟨ys, h1, rfl⟩ := eachLine_inv ls _ e
        obtain ⟨y, hy, rfl⟩ := one_inv ho
        exact ⟨y :: ys, ⟨hy, h1⟩, by simp [printed]⟩

theorem jsonl_ok {first rest : Bytes} {ys : List (Value ν)} (hu : Jiter.utf8Valid rest = true)
    (h : Each (Turns S a) ((if trim first = [] then [] else [trim first]) ++ inked (linesFrom [] rest)) ys) :
    processJsonl S a first rest = (printed S a ys, none) := by
  have hl := lines_utf8 rest [] hu
  unfold processJsonl
  split at h
  · rename_i ht
    rw [if_pos ht]
    exact eachLine_ok _ _ ys hl h
  · rename_i ht
    rw [if_neg ht]
    rcases ys with _ | ⟨y, ys⟩
    · exact h.elim
    · rw [one_ok h.1]
      simp only
      rw [eachLine_ok _ _ ys hl h.2]
      simp [printed]

theorem jsonl_inv {first rest out : Bytes} (h : processJsonl S a first rest = (out, none)) :
    ∃ ys, Each (Turns S a) ((if trim first = [] then [] else [trim first]) ++ inked (linesFrom [] rest)) ys ∧ out = printed S a ys := by
  unfold processJsonl at h
  split at h
  · rename_i ht
    rw [if_pos ht]
    exact eachLine_inv _ _ h
  · rename_i ht
    rw [if_neg ht]
    split at h
    · cases h
    · rename_i o ho
      rcases e : eachLine S a 0 (linesFrom [] rest) with ⟨more, r⟩
      rw [e] at h
      cases h
      obtain ⟨ys, h1, rfl⟩ := eachLine_inv _ _ e
      obtain ⟨y, hy, rfl⟩ := one_inv ho
      exact ⟨y :: ys, ⟨hy, h1⟩, by simp [printed]⟩

theorem json_inv {first rest out : Bytes} (h : processJson S a first rest = (out, none)) : ∃ y, Turns S a (first ++ rest) y ∧ out = printed S a [y] := by
  unfold processJson at h
  split at h
  · cases h
  · split at h
    · cases h
    · rename_i o ho
      cases h
      obtain ⟨y, hy, rfl⟩ := one_inv ho
      exact ⟨y, hy, rfl⟩

theorem json_ok {first rest : Bytes} {y : Value ν} (hu : Jiter.utf8Valid rest = true) (h : Turns S a (first ++ rest) y) :
    processJson S a first rest = (printed S a [y], none) := by
  unfold processJson
  rw [if_neg (by rw [hu]; nofun), one_ok h]
  rfl

/-! ## The first line -/

theorem utf8_cut {s : Bytes} (h : Jiter.utf8Valid s = true) : Jiter.utf8Valid (cutLine s).1 = true ∧ Jiter.utf8Valid (cutLine s).2 = true := by
  rcases cutLine_cases s with ⟨l, rest, e, _, h'⟩ | ⟨_, h'⟩
  · rw [h']
    rw [e] at h
    have := utf8_split (c := 10) (by decide) _ l rest (Nat.le_refl _) h
    exact ⟨utf8_append this.1 (by decide), this.2⟩
  · rw [h']
    exact ⟨h, rfl⟩

theorem cutLine_append : ∀ (p : Bytes) {r : Bytes}, 10 ∉ p → cutLine (p ++ r) = (p ++ (cutLine r).1, (cutLine r).2)
  | [], _, _ => rfl
  | c :: p, r, h => by
    rw [List.cons_append, cutLine, if_neg (fun e => h (by simp [e])), cutLine_append p fun e => h (by simp [e])]
    rfl

theorem cutLine_within : ∀ (w : Bytes) {r : Bytes}, 10 ∈ w → ∀ c ∈ (cutLine (w ++ r)).1, c ∈ w
  | [], _, h => by cases h
  | d :: w, r, h => by
    intro c hc
    rw [List.cons_append, cutLine] at hc
    split at hc
    · rename_i e
      simp only [List.mem_singleton] at hc
      rw [hc, ← e]
      simp
    · rename_i e
      simp only [List.mem_cons] at hc
      rcases hc with rfl | hc
      · simp
      · exact List.mem_cons_of_mem _ (cutLine_within w ((List.mem_cons.1 h).resolve_left fun e' => e e'.symm) c hc)

theorem cutLine_tail {s : Bytes} (h : Spaces s) : Spaces (cutLine s).1 := fun c hc => h c (by
  rw [cutLine_eq s]
  exact List.mem_append_left _ hc)

theorem cutLine_docs {ds : Docs} {tail : Bytes} (ht : Spaces tail) (hd : ∀ d ∈ ds, Spaces d.1 ∧ 10 ∈ d.1) : Spaces (cutLine (Docs.text ds tail)).1 := by
  rcases ds with _ | ⟨⟨w, v⟩, ds⟩
  · exact cutLine_tail ht
  · have h : Spaces w ∧ 10 ∈ w := hd (w, v) (by simp)
    rw [Docs.text]
    exact fun c hc => h.1 c (cutLine_within w h.2 c hc)

/-! ## C86 -/

/-- A document of the stream stands for `x`, which is converted into `y`. -/
def Becomes (S : Serde ν) (a : Args) (v : Val) (y : Value ν) : Prop :=
  ∃ x, Stands S.toNumbers v x ∧ levels v ≤ 127 ∧ a.conv S.toNumbers x = .ok y

theorem docs_utf8 {tail : Bytes} (ht : Spaces tail) : ∀ {ds : Docs} {ys : List (Value ν)}, (∀ d ∈ ds, Spaces d.1) → Each (fun d => Becomes S a d.2) ds ys →
    Jiter.utf8Valid (Docs.text ds tail) = true ∧ ∀ d ∈ ds, Spaces d.1 ∧ Framed d.2.text
  | [], _, _, _ => ⟨utf8_spaces ht, nofun⟩
  | _ :: _, [], _, h => h.elim
  | (w, v) :: ds, y :: ys, hw, ⟨⟨x, h1, _, _⟩, h2⟩ => by
    have hw' : Spaces w := hw (w, v) (by simp)
    obtain ⟨i1, i2⟩ := docs_utf8 ht (fun d h => hw d (by simp [h])) h2
    refine ⟨utf8_append (utf8_spaces hw') (utf8_append (stands_utf8 h1) i1), fun d hd => ?_⟩
    rcases List.mem_cons.1 hd with rfl | hd
    · exact ⟨hw', stands_framed h1⟩
    · exact i2 d hd

theorem turns_of (hS : S.Real) {w w' : Bytes} {v : Val} {y : Value ν} (hw : Spaces w) (hw' : Spaces w') (h : Becomes S a v y) : Turns S a (w ++ (v.text ++ w')) y := by
  obtain ⟨x, h1, h2, h3⟩ := h
  exact ⟨x, hS.complete w v w' x hw hw' h1 h2, h3⟩

theorem turns_bare (hS : S.Real) {v : Val} {y : Value ν} (h : Becomes S a v y) : Turns S a v.text y := by
  have := turns_of hS spaces_nil spaces_nil h
  rwa [List.nil_append, List.append_nil] at this

/-- **C86, partial**, several documents: if each is on a line of its own, and the first is on the first line (or the name of the file ends in
`.jsonl`), then each of them is converted, and the results are printed in the same order. Blank lines are skipped. For other streams
see `C86_refused`, for one document in any layout `C86_single`. -/
theorem C86_lines_partial (hS : S.Real) (ds : Docs) (tail : Bytes) (ys : List (Value ν)) (hw : ∀ d ∈ ds, Spaces d.1) (ht : Spaces tail) (hl : OnLines ds)
    (h : Each (fun d => Becomes S a d.2) ds ys) (hf : a.jsonl = true ∨ ∃ w v more, ds = (w, v) :: more ∧ 10 ∉ w) :
    main S a (Docs.text ds tail) = (printed S a ys, none) := by
  obtain ⟨hu, hd⟩ := docs_utf8 ht hw h
  have hi := inked_docs ht ds hd hl
  have he : Each (Turns S a) (inked (linesFrom [] (Docs.text ds tail))) ys := by
    rw [hi]
    exact Each.map (fun d : Bytes × Val => d.2.text) (h.imp fun d _ y => turns_bare hS)
  unfold main
  by_cases hj : a.jsonl = true
  · rw [if_pos hj]
    exact jsonl_ok hu (by rw [if_pos (show trim [] = [] from rfl)]; exact he)
  · rw [if_neg hj]
    obtain ⟨w, v, more, rfl, hn⟩ := hf.resolve_left hj
    obtain ⟨u1, u2⟩ := utf8_cut hu
    have hv : Spaces w ∧ Framed v.text := hd (w, v) (by simp)
    have ht1 : trim (cutLine (Docs.text ((w, v) :: more) tail)).1 = v.text := by
      rw [Docs.text, cutLine_append w hn, cutLine_append v.text hl.1]
      exact trim_text hv.1 hv.2 (cutLine_docs ht fun d hd' => ⟨(hd d (List.mem_cons_of_mem _ hd')).1, hl.2.1 d hd'⟩)
    rw [inked_cut] at he
    rcases hc : cutLine (Docs.text ((w, v) :: more) tail) with ⟨first, rest⟩
    rw [hc] at u1 u2 ht1 he
    simp only at u1 u2 ht1 he ⊢
    rw [if_neg (by rw [u1]; nofun), if_neg (by rw [ht1]; exact hv.2.ne)]
    rcases ys with _ | ⟨y, ys⟩
    · exact h.elim
    · obtain ⟨x, hx, _⟩ := turns_bare hS h.1
      rw [ht1, if_pos (by rw [show S.read v.text = some x from hx]; rfl)]
      exact jsonl_ok u2 he

end Verif.Bench
