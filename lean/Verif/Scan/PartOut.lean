import Verif.Scan.PartUnique
import Verif.Ddb.Sound

/-!
# What a client has made of the beginning of a JSON text

A client that only appends to its output has on the beginning of a text written the beginning of what it writes for the whole, if no number
is cut, or if it takes no number.
-/

namespace Verif.Scan

open Verif.RJiter
open Verif.RJiter.Jiter
open Verif.Ddb (Unspaced Atoms AtomsItems AtomsMembers)

set_option linter.unusedSectionVars false

variable {β : Type}

/-- The callbacks only append to the output. -/
structure Grows (H : Handler β) (out : β → Bytes) : Prop where
  start : ∀ p path v b, out b <+: out (H.start p path v b).1
  finish : ∀ p path b, out b <+: out (H.finish p path b).1

/-- A begin callback that fails with the input `t` has written a beginning of what it writes if there is `u` behind `t`. With `top`, this is
not said of a string, number or literal at the top level. -/
def Onward (H : Handler β) (out : β → Bytes) (u : Bytes) (top : Prop) : Failing β := fun p path t b b' =>
  (top → ¬ (p = .atom ∧ path.head? = some nameTop)) → ∀ ws v s, Spaces ws → v.Meets .plain → v.Clear s → Starts p v → t ++ u = ws ++ (v.text ++ s) → out b' <+: out (H.start p path v b).1

/-- No number is let through. -/
structure NoNumber (H : Handler β) : Prop where
  atom : ∀ path tok b, Number tok → ∃ m, (H.start .atom path (.atom tok) b).2 = .error m
  value : ∀ path tok b, Number tok → (H.start .none path (.atom tok) b).2 ≠ .valueIsConsumed

section
variable {H : Handler β} {out : β → Bytes} (hg : Grows H out)
include hg

theorem Grows.end_grows {p : Pseudo} {path : List Bytes} {b b' : β} (h : H.end p path b = .done b') : out b <+: out b' := by
  have := hg.finish p path b
  unfold Handler.end at h
  rcases hs : H.finish p path b with ⟨b1, _ | m⟩ <;> rw [hs] at h this
  · injection h with h; exact h ▸ this
  · cases h

theorem Grows.around_start {p : Pseudo} {path : List Bytes} {v : Val} {inner : β → Out β} {b b' : β} (hi : ∀ b b', inner b = .done b' → out b <+: out b')
    (h : H.around p path v inner b = .done b') : out (H.start p path v b).1 <+: out b' := by
  unfold Handler.around at h
  rcases hs : H.start p path v b with ⟨b1, _ | _ | m⟩ <;> rw [hs] at h
  · exact hi _ _ h
  · injection h with h; exact h ▸ List.prefix_rfl
  · cases h

theorem Grows.around_grows {p : Pseudo} {path : List Bytes} {v : Val} {inner : β → Out β} {b b' : β} (hi : ∀ b b', inner b = .done b' → out b <+: out b')
    (h : H.around p path v inner b = .done b') : out b <+: out b' :=
  (hg.start p path v b).trans (hg.around_start hi h)

mutual
theorem Val.scan_grows {R : Room} : ∀ (v : Val) (path : List Bytes) (b b' : β), v.scan H R path b = .done b' → out b <+: out b'
  | .atom _, path, b, b', h => hg.around_grows (fun b b' h => by injection h with h; exact h ▸ List.prefix_rfl) h
  | .arr w items, path, b, b', h => by
    simp only [Val.scan] at h
    refine hg.around_grows (fun b b' h => ?_) h
    split at h
    · obtain ⟨c1, g1, g2⟩ := Out.bind_done h
      exact (Items.scan_grows items _ _ _ g1).trans (hg.end_grows g2)
    · cases h
  | .obj w ms, path, b, b', h => by
    simp only [Val.scan] at h
    refine hg.around_grows (fun b b' h => ?_) h
    obtain ⟨c1, g1, g2⟩ := Out.bind_done h
    exact (Members.scan_grows ms _ _ _ g1).trans (hg.end_grows g2)
theorem Items.scan_grows {R : Room} : ∀ (is : Items) (path : List Bytes) (b b' : β), is.scan H R path b = .done b' → out b <+: out b'
  | .nil, _, b, b', h => by injection h with h; exact h ▸ List.prefix_rfl
  | .cons _ v _ more, path, b, b', h => by
    obtain ⟨c1, g1, g2⟩ := Out.bind_done h
    exact (Val.scan_grows v _ _ _ g1).trans (Items.scan_grows more _ _ _ g2)
theorem Members.scan_grows {R : Room} : ∀ (ms : Members) (path : List Bytes) (b b' : β), ms.scan H R path b = .done b' → out b <+: out b'
  | .nil, _, b, b', h => by injection h with h; exact h ▸ List.prefix_rfl
  | .cons _ k _ _ v _ more, path, b, b', h => by
    simp only [Members.scan] at h
    split at h
    · obtain ⟨c1, g1, g2⟩ := Out.bind_done h
      obtain ⟨c2, g3, g4⟩ := Out.bind_done g1
      exact ((hg.around_grows (Val.scan_grows v _) g3).trans (hg.end_grows g4)).trans (Members.scan_grows more _ _ _ g2)
    · split at h <;> cases h
end

theorem Docs.scan_grows {R : Room} {path : List Bytes} : ∀ (ds : Docs) (b b' : β), Docs.scan H R path ds b = .done b' → out b <+: out b'
  | [], b, b', h => by injection h with h; exact h ▸ List.prefix_rfl
  | (_, v) :: ds, b, b', h => by
    obtain ⟨c1, g1, g2⟩ := Out.bind_done h
    exact (Val.scan_grows hg v _ _ _ g1).trans (Docs.scan_grows ds _ _ g2)

theorem Grows.val_start {R : Room} {p : Pseudo} {v : Val} {path : List Bytes} {b b' : β} (hp : Starts p v) (hn : p ≠ .none)
    (h : v.scan H R path b = .done b') : out (H.start p path v b).1 <+: out b' := by
  cases p with
  | none => exact (hn rfl).elim
  | atom =>
    cases v with
    | atom => exact hg.around_start (fun b b' h => by injection h with h; exact h ▸ List.prefix_rfl) h
    | _ => exact hp.elim
  | array =>
    cases v with
    | arr w items =>
      simp only [Val.scan] at h
      refine hg.around_start (fun b b' h => ?_) h
      split at h
      · obtain ⟨c1, g1, g2⟩ := Out.bind_done h
        exact (Items.scan_grows hg items _ _ _ g1).trans (hg.end_grows g2)
      · cases h
    | _ => exact hp.elim
  | object =>
    cases v with
    | obj w ms =>
      simp only [Val.scan] at h
      refine hg.around_start (fun b b' h => ?_) h
      obtain ⟨c1, g1, g2⟩ := Out.bind_done h
      exact (Members.scan_grows hg ms _ _ _ g1).trans (hg.end_grows g2)
    | _ => exact hp.elim
end

section
variable {H : Handler β} (hn : NoNumber H)
include hn

theorem NoNumber.scan {R : Room} {v v' : Val} {x : Bytes} {path : List Bytes} {b b' : β} (hc : v.Cut v' x) (h : v.scan H R path b = .done b') : False := by
  obtain ⟨tok, _, _, _, rfl, _, _, hk, _⟩ := hc
  obtain ⟨m, hm⟩ := hn.atom path tok b hk
  simp only [Val.scan, Handler.around] at h
  rcases hs : H.start .atom path (.atom tok) b with ⟨b1, o⟩
  rw [hs] at h hm
  subst hm
  cases h

theorem NoNumber.around {R : Room} {v v' : Val} {x : Bytes} {path : List Bytes} {b b' : β} (hc : v.Cut v' x)
    (h : H.around .none path v (v.scan H R path) b = .done b') : False := by
  have hc' := hc
  obtain ⟨tok, _, _, _, rfl, _, _, hk, _⟩ := hc
  have hv := hn.value path tok b hk
  unfold Handler.around at h
  rcases hs : H.start .none path (.atom tok) b with ⟨b1, _ | _ | m⟩ <;> rw [hs] at h hv
  · exact hn.scan hc' h
  · exact hv rfl
  · cases h
end

theorem around_passes {H : Handler β} {p : Pseudo} {path : List Bytes} {v : Val} {inner : β → Out β} {b b1 b2 : β} (hp : Passes H p path b b1)
    (h : H.around p path v inner b = .done b2) : inner b1 = .done b2 := by
  unfold Handler.around at h
  rwa [hp v] at h

theorem end_fails {H : Handler β} {p : Pseudo} {path : List Bytes} {b b1 b2 : β} (hp : EndFails H p path b b1) (h : H.end p path b = .done b2) : False := by
  obtain ⟨m, hm⟩ := hp
  unfold Handler.end at h
  rw [hm] at h
  cases h

/-! ## No number is cut -/

mutual
/-- As `Stub.Of`, and no number is cut. -/
def Stub.Same (t u : Bytes) : Stub → Val → Prop
  | .nothing, _ => True
  | .begun p, v => p ≠ .none ∧ Starts p v ∧ ∃ s, v.Clear s ∧ t ++ u = v.text ++ s
  | .arr _ is, v => ∃ w js, v = .arr w js ∧ is.Same t u js
  | .obj _ ms, v => ∃ w js, v = .obj w js ∧ ms.Same t u js
@[inherit_doc Stub.Same]
def StubItems.Same (t u : Bytes) : StubItems → Items → Prop
  | .closed, js => js = .nil
  | .here _ x, js => x = .nothing ∨ ∃ b v a more, js = .cons b v a more ∧ x.Same t u v
  | .later _ v _ more, js => ∃ b v' a more', js = .cons b v' a more' ∧ v.strip = v'.strip ∧ more.Same t u more'
@[inherit_doc Stub.Same]
def StubMore.Same (t u : Bytes) : StubMore → Items → Prop
  | .nothing, _ => True
  | .closed, js => js = .nil
  | .comma is, js => is.Same t u js
@[inherit_doc Stub.Same]
def StubMembers.Same (t u : Bytes) : StubMembers → Members → Prop
  | .closed, js => js = .nil
  | .key _ k _, js => ∃ b m n v a more s, js = .cons b k m n v a more ∧ v.Clear s ∧ t ++ u = n ++ (v.text ++ s)
  | .here _ k _ _ x, js => ∃ b m n v a more, js = .cons b k m n v a more ∧ x.Same t u v
  | .ended _ k _ _ v, js => ∃ b m n v' a more, js = .cons b k m n v' a more ∧ v.strip = v'.strip
  | .later _ k _ _ v _ more, js => ∃ b m n v' a more', js = .cons b k m n v' a more' ∧ v.strip = v'.strip ∧ more.Same t u more'
@[inherit_doc Stub.Same]
def StubRest.Same (t u : Bytes) : StubRest → Members → Prop
  | .nothing, _ => True
  | .closed, js => js = .nil
  | .comma ms, js => ms.Same t u js
end

/-- A number has at most `L` bytes. -/
def Within (L : Nat) (tok : Bytes) : Prop := Number tok → tok.length ≤ L

/-- The text in front of a stop at the end of the input does not end with a digit. -/
def Undivided (lead t u : Bytes) : Prop := t = [] → u ≠ [] → ∀ c, lead.getLast? = some c → ¬ Digit c

theorem Undivided.of_append {a b t u : Bytes} (h : Undivided (a ++ b) t u) : Undivided b t u := fun ht hu c hc =>
  h ht hu c (by rw [List.getLast?_append, hc]; rfl)

theorem Undivided.of_cons {c : Byte} {b t u : Bytes} (h : Undivided (c :: b) t u) : Undivided b t u :=
  Undivided.of_append (a := [c]) h

theorem number_last {tok : Bytes} (h : Number tok) : ∃ c, tok.getLast? = some c ∧ Digit c := by
  have hd : ∀ {ds : Bytes}, Digits ds → ∃ c, ds.getLast? = some c ∧ Digit c := by
    intro ds h
    rcases hl : ds.getLast? with _ | c
    · exact absurd (List.getLast?_eq_none_iff.1 hl) h.1
    · exact ⟨c, rfl, h.2 c (List.mem_of_getLast? hl)⟩
  obtain ⟨m, i, f, e, rfl, _, hi, hf, he⟩ := h
  have hi' : ∃ c, i.getLast? = some c ∧ Digit c := by
    rcases hi with rfl | ⟨hi, _⟩
    · exact ⟨48, rfl, by unfold Digit; decide⟩
    · exact hd hi
  have hf' : f = [] ∨ ∃ c, f.getLast? = some c ∧ Digit c := by
    rcases hf with rfl | ⟨ds, rfl, h⟩
    · exact .inl rfl
    · obtain ⟨c, h1, h2⟩ := hd h
      exact .inr ⟨c, by rw [show (46 :: ds : Bytes) = [46] ++ ds from rfl, List.getLast?_append, h1]; rfl, h2⟩
  have he' : e = [] ∨ ∃ c, e.getLast? = some c ∧ Digit c := by
    rcases he with rfl | ⟨x, sg, ds, rfl, _, _, h3⟩
    · exact .inl rfl
    · obtain ⟨c, h1, h2⟩ := hd h3
      exact .inr ⟨c, by rw [show (x :: (sg ++ ds) : Bytes) = (x :: sg) ++ ds from rfl, List.getLast?_append, h1]; rfl, h2⟩
  rcases he' with rfl | ⟨c, h1, h2⟩
  · rcases hf' with rfl | ⟨c, h1, h2⟩
    · obtain ⟨c, h1, h2⟩ := hi'
      exact ⟨c, by simp only [List.append_nil]; rw [List.getLast?_append, h1]; rfl, h2⟩
    · exact ⟨c, by simp only [List.append_nil]; rw [List.getLast?_append, List.getLast?_append, h1]; rfl, h2⟩
  · exact ⟨c, by rw [List.getLast?_append, List.getLast?_append, List.getLast?_append, h1]; rfl, h2⟩

/-- A number is not cut. -/
theorem Val.Cut.not {L : Nat} {v v' : Val} {t u : Bytes} (h : v.Cut v' (t ++ u)) (hp : v.Parted L t) (hv : Atoms (Within L) v')
    (hd : Undivided v.text t u) : False := by
  obtain ⟨tok, d, z, y, rfl, rfl, e, hn, hn'⟩ := h
  cases t with
  | nil =>
    obtain ⟨c, h1, h2⟩ := number_last hn
    refine hd rfl ?_ c h1 h2
    rintro rfl
    cases e
  | cons c t =>
    injection e with e _
    subst e
    rcases hp hn with h | h
    · exact h c t z rfl hn'
    · have := hv hn'
      simp only [List.length_append, List.length_cons] at this
      omega

mutual
theorem Stub.Of.same {L : Nat} {t u : Bytes} : ∀ (x : Stub) (v : Val), x.Of t u v → x.Parted L t → Atoms (Within L) v → Undivided x.lead t u → x.Same t u v
  | .nothing, _, _, _, _, _ => trivial
  | .begun _, _, h, _, _, _ => h
  | .arr _ is, _, ⟨w, js, e, h⟩, hp, hv, hd => by
    subst e
    exact ⟨w, js, rfl, StubItems.Of.same is js h hp hv hd.of_cons.of_append⟩
  | .obj _ ms, _, ⟨w, js, e, h⟩, hp, hv, hd => by
    subst e
    exact ⟨w, js, rfl, StubMembers.Of.same ms js h hp hv hd.of_cons.of_append⟩
theorem StubItems.Of.same {L : Nat} {t u : Bytes} : ∀ (is : StubItems) (js : Items), is.Of t u js → is.Parted L t → AtomsItems (Within L) js →
    Undivided is.lead t u → is.Same t u js
  | .closed, _, h, _, _, _ => h
  | .here _ x, _, h, hp, hv, hd => by
    rcases h with h | ⟨b, v, a, more, rfl, h⟩
    · exact .inl h
    · exact .inr ⟨b, v, a, more, rfl, Stub.Of.same x v h hp hv.1 hd.of_append⟩
  | .later _ v _ more, _, ⟨b, v', a', more', e, h⟩, hp, hv, hd => by
    subst e
    rcases h with ⟨h1, h2⟩ | ⟨hc, rfl, rfl⟩
    · exact ⟨b, v', a', more', rfl, h1, StubMore.Of.same more more' h2 hp.2 hv.2 hd.of_append.of_append.of_append⟩
    · exact (hc.not hp.1 hv.1 (by have := hd.of_append; simpa [StubMore.lead] using this)).elim
theorem StubMore.Of.same {L : Nat} {t u : Bytes} : ∀ (more : StubMore) (js : Items), more.Of t u js → more.Parted L t → AtomsItems (Within L) js →
    Undivided more.lead t u → more.Same t u js
  | .nothing, _, _, _, _, _ => trivial
  | .closed, _, h, _, _, _ => h
  | .comma is, js, h, hp, hv, hd => StubItems.Of.same is js h.2 hp hv hd.of_cons
theorem StubMembers.Of.same {L : Nat} {t u : Bytes} : ∀ (ms : StubMembers) (js : Members), ms.Of t u js → ms.Parted L t → AtomsMembers (Within L) js →
    Undivided ms.lead t u → ms.Same t u js
  | .closed, _, h, _, _, _ => h
  | .key _ _ _, _, h, _, _, _ => h
  | .here _ _ _ _ x, _, ⟨b, m, n, v, a, more, e, h⟩, hp, hv, hd => by
    subst e
    exact ⟨b, m, n, v, a, more, rfl, Stub.Of.same x v h hp hv.1 hd.of_append.of_cons.of_append.of_cons.of_append.of_cons.of_append⟩
  | .ended _ _ _ _ v, _, ⟨b, m, n, v', a, more, e, h⟩, hp, hv, hd => by
    subst e
    rcases h with h | hc
    · exact ⟨b, m, n, v', a, more, rfl, h⟩
    · exact (hc.not hp hv.1 hd.of_append.of_cons.of_append.of_cons.of_append.of_cons.of_append).elim
  | .later _ _ _ _ v _ more, _, ⟨b, m, n, v', a, more', e, h⟩, hp, hv, hd => by
    subst e
    have hd := hd.of_append.of_cons.of_append.of_cons.of_append.of_cons.of_append
    rcases h with ⟨h1, h2⟩ | ⟨hc, rfl, rfl⟩
    · exact ⟨b, m, n, v', a, more', rfl, h1, StubRest.Of.same more more' h2 hp.2 hv.2 hd.of_append.of_append⟩
    · exact (hc.not hp.1 hv.1 (by simpa [StubRest.lead] using hd)).elim
theorem StubRest.Of.same {L : Nat} {t u : Bytes} : ∀ (more : StubRest) (js : Members), more.Of t u js → more.Parted L t → AtomsMembers (Within L) js →
    Undivided more.lead t u → more.Same t u js
  | .nothing, _, _, _, _, _ => trivial
  | .closed, _, h, _, _, _ => h
  | .comma ms, js, h, hp, hv, hd => StubMembers.Of.same ms js h.2 hp hv hd.of_cons
end

section
variable {H : Handler β} (hn : NoNumber H) {E : Failing β} {R : Room}
include hn

mutual
theorem Stub.Of.taken {t u : Bytes} : ∀ (x : Stub) (v : Val) (path : List Bytes) (b b' : β), x.Of t u v → x.Gives H E R path t b b' → x.Same t u v
  | .nothing, _, _, _, _, _, _ => trivial
  | .begun _, _, _, _, _, h, _ => h
  | .arr _ is, _, _, _, _, ⟨w, js, e, h⟩, ⟨_, _, _, hg⟩ => ⟨w, js, e, StubItems.Of.taken is js _ _ _ _ h hg⟩
  | .obj _ ms, _, _, _, _, ⟨w, js, e, h⟩, ⟨_, _, hg⟩ => ⟨w, js, e, StubMembers.Of.taken ms js _ _ _ h hg⟩
theorem StubItems.Of.taken {t u : Bytes} : ∀ (is : StubItems) (js : Items) (path outer : List Bytes) (b b' : β), is.Of t u js →
    is.Gives H E R path outer t b b' → is.Same t u js
  | .closed, _, _, _, _, _, h, _ => h
  | .here _ x, _, _, _, _, _, h, ⟨_, hg⟩ => by
    rcases h with h | ⟨b, v, a, more, e, h⟩
    · exact .inl h
    · exact .inr ⟨b, v, a, more, e, Stub.Of.taken x v _ _ _ h hg⟩
  | .later _ v _ more, _, _, _, _, _, ⟨b, v', a', more', e, h⟩, ⟨_, h1, hg⟩ => by
    rcases h with ⟨k1, k2⟩ | ⟨hc, _⟩
    · exact ⟨b, v', a', more', e, k1, StubMore.Of.taken more more' _ _ _ _ k2 hg⟩
    · exact (hn.scan hc h1).elim
theorem StubMore.Of.taken {t u : Bytes} : ∀ (more : StubMore) (js : Items) (path outer : List Bytes) (b b' : β), more.Of t u js →
    more.Gives H E R path outer t b b' → more.Same t u js
  | .nothing, _, _, _, _, _, _, _ => trivial
  | .closed, _, _, _, _, _, h, _ => h
  | .comma is, js, path, outer, b, b', h, hg => StubItems.Of.taken is js path outer b b' h.2 hg
theorem StubMembers.Of.taken {t u : Bytes} : ∀ (ms : StubMembers) (js : Members) (path : List Bytes) (b b' : β), ms.Of t u js →
    ms.Gives H E R path t b b' → ms.Same t u js
  | .closed, _, _, _, _, h, _ => h
  | .key _ _ _, _, _, _, _, h, _ => h
  | .here _ _ _ _ x, _, _, _, _, ⟨b, m, n, v, a, more, e, h⟩, ⟨_, _, _, hg⟩ => ⟨b, m, n, v, a, more, e, Stub.Of.taken x v _ _ _ h hg⟩
  | .ended _ _ _ _ v, _, _, _, _, ⟨b, m, n, v', a, more, e, h⟩, ⟨_, _, h1, _⟩ => by
    rcases h with h | hc
    · exact ⟨b, m, n, v', a, more, e, h⟩
    · exact (hn.around hc h1).elim
  | .later _ _ _ _ v _ more, _, _, _, _, ⟨b, m, n, v', a, more', e, h⟩, ⟨_, _, _, h1, _, hg⟩ => by
    rcases h with ⟨k1, k2⟩ | ⟨hc, _⟩
    · exact ⟨b, m, n, v', a, more', e, k1, StubRest.Of.taken more more' _ _ _ k2 hg⟩
    · exact (hn.around hc h1).elim
theorem StubRest.Of.taken {t u : Bytes} : ∀ (more : StubRest) (js : Members) (path : List Bytes) (b b' : β), more.Of t u js →
    more.Gives H E R path t b b' → more.Same t u js
  | .nothing, _, _, _, _, _, _ => trivial
  | .closed, _, _, _, _, h, _ => h
  | .comma ms, js, path, b, b', h, hg => StubMembers.Of.taken ms js path b b' h.2 hg
end
end

/-- As `Docs.Of`, and no number is cut. -/
def Docs.Same (t u : Bytes) (x : Stub) : Docs → Docs → Prop
  | [], [] => x = .nothing
  | [], (_, v) :: _ => x.Same t u v
  | _ :: _, [] => False
  | (_, v') :: ds', (_, v) :: ds => v'.strip = v.strip ∧ Docs.Same t u x ds' ds

theorem Docs.Of.same {L : Nat} {t u : Bytes} {x : Stub} : ∀ (ds' ds : Docs), Docs.Of t u x ds' ds → x.Parted L t → (∀ d ∈ ds, Atoms (Within L) d.2) →
    (∀ d ∈ ds, ∀ tok, d.2 ≠ .atom tok) → Undivided x.lead t u → Docs.Same t u x ds' ds
  | [], [], h, _, _, _, _ => h
  | [], (_, v) :: _, h, hp, hv, _, hd => Stub.Of.same x v h hp (hv _ (List.mem_cons_self ..)) hd
  | _ :: _, [], h, _, _, _, _ => h.elim
  | _ :: ds', _ :: ds, h, hp, hv, ha, hd => by
    rcases h with ⟨e, h⟩ | ⟨⟨_, _, _, _, _, e, _⟩, _⟩
    · exact ⟨e, Docs.Of.same ds' ds h hp (fun d hd => hv d (List.mem_cons_of_mem _ hd)) (fun d hd => ha d (List.mem_cons_of_mem _ hd)) hd⟩
    · exact (ha _ (List.mem_cons_self ..) _ e).elim

theorem Docs.Of.taken {H : Handler β} (hn : NoNumber H) {E : Failing β} {R : Room} {path : List Bytes} {t u : Bytes} {x : Stub} :
    ∀ (ds' ds : Docs) (b b1 b' : β), Docs.Of t u x ds' ds → Docs.scan H R path ds' b = .done b1 → x.Gives H E R path t b1 b' → Docs.Same t u x ds' ds
  | [], [], _, _, _, h, _, _ => h
  | [], (_, v) :: _, _, _, _, h, _, hg => Stub.Of.taken hn x v _ _ _ h hg
  | _ :: _, [], _, _, _, h, _, _ => h.elim
  | _ :: ds', _ :: ds, _, _, _, h, h1, hg => by
    obtain ⟨c, g1, g2⟩ := Out.bind_done h1
    rcases h with ⟨e, h⟩ | ⟨hc, _⟩
    · exact ⟨e, Docs.Of.taken hn ds' ds _ _ _ h g2 hg⟩
    · exact (hn.scan hc g1).elim

/-! ## The output -/

/-- With `top`: the name at the top level is only there, and there is no string, number or literal. -/
def Rooted (top : Prop) (path : List Bytes) (v : Val) : Prop :=
  top → v.Keys (· ≠ nameTop) ∧ (path.head? = some nameTop → ∀ tok, v ≠ .atom tok)

section
variable {H : Handler β} {out : β → Bytes} (hg : Grows H out) (hu : Unspaced H) {R R' : Room} {top : Prop}

section
include hu
theorem Unspaced.scan_same {v v' : Val} {path : List Bytes} {b b1 b2 : β} (e : v.strip = v'.strip) (h : v.scan H R path b = .done b1)
    (h' : v'.scan H R' path b = .done b2) : b1 = b2 := by
  rw [← Unspaced.val hu, e, Unspaced.val hu] at h
  exact Val.scan_room H R R' v' _ _ _ _ h h'

theorem Unspaced.around_same {v v' : Val} {path : List Bytes} {b b1 b2 : β} (e : v.strip = v'.strip)
    (h : H.around .none path v (v.scan H R path) b = .done b1) (h' : H.around .none path v' (v'.scan H R' path) b = .done b2) : b1 = b2 := by
  rw [← Unspaced.around hu .none path v trivial, e, Unspaced.around hu .none path v' trivial, ← Unspaced.val hu R v path, e,
    Unspaced.val hu R v' path] at h
  exact Handler.around_same (Val.scan_room H R R' v' _) _ _ _ h h'
end

include hg hu


mutual
theorem Stub.Same.ahead {t u : Bytes} : ∀ (x : Stub) (v : Val) (path : List Bytes) (b b' b2 : β), Rooted top path v →
    v.Meets .plain → x.Same t u v →
    x.Gives H (Onward H out u top) R path t b b' → v.scan H R' path b = .done b2 → out b' <+: out b2
  | .nothing, v, path, b, b', b2, hk, _, _, h, h' => by
    rw [show b' = b from h]
    exact Val.scan_grows hg v _ _ _ h'
  | .begun p, v, path, b, b', b2, hk, hv, ⟨hp, hst, s, hc, e⟩, ⟨_, h⟩, h' => by
    refine .trans ?_ (hg.val_start hst hp h')
    rcases h with h | h
    · rw [h v]; exact List.prefix_rfl
    · refine h (fun ht hp' => ?_) [] v s (List.forall_mem_nil _) hv hc hst e
      obtain ⟨rfl, hp'⟩ := hp'
      cases v with
      | atom tok => exact (hk ht).2 hp' tok rfl
      | _ => exact hst
  | .arr w is, v, path, b, b', b2, hk, hv, ⟨w', js, ev, ho⟩, ⟨b1, h1, _, h2⟩, h' => by
    subst ev
    simp only [Val.scan] at h'
    have h' := around_passes h1 h'
    split at h'
    · exact StubItems.Same.ahead is js _ path b1 b' b2 (fun h => ⟨(hk h).1, by simp [nameTop, nameArray]⟩) hv.2 ho h2 h'
    · cases h'
  | .obj w ms, v, path, b, b', b2, hk, hv, ⟨w', js, ev, ho⟩, ⟨b1, h1, h2⟩, h' => by
    subst ev
    simp only [Val.scan] at h'
    exact StubMembers.Same.ahead ms js path b1 b' b2 (fun h => (hk h).1) hv.2 ho h2 (around_passes h1 h')

theorem StubItems.Same.ahead {t u : Bytes} : ∀ (is : StubItems) (js : Items) (path outer : List Bytes) (b b' b2 : β),
    (top → js.Keys (· ≠ nameTop) ∧ path.head? ≠ some nameTop) → js.Meets .plain → is.Same t u js →
    is.Gives H (Onward H out u top) R path outer t b b' → (js.scan H R' path b).bind (H.end .array outer) = .done b2 → out b' <+: out b2
  | .closed, js, path, outer, b, b', b2, hk, _, ho, h, h' => by
    obtain rfl := ho
    exact (end_fails h h').elim
  | .here _ x, js, path, outer, b, b', b2, hk, hj, ho, ⟨_, h⟩, h' => by
    obtain ⟨c1, g1, g2⟩ := Out.bind_done h'
    refine .trans ?_ (hg.end_grows g2)
    rcases ho with rfl | ⟨_, v, _, more, rfl, ho⟩
    · rw [show b' = b from h]
      exact Items.scan_grows hg js _ _ _ g1
    · obtain ⟨c2, g3, g4⟩ := Out.bind_done g1
      exact (Stub.Same.ahead x v path b b' c2 (fun h => ⟨(hk h).1.1, fun e => absurd e (hk h).2⟩) hj.2.1 ho h g3).trans (Items.scan_grows hg more _ _ _ g4)
  | .later _ v _ more, js, path, outer, b, b', b2, hk, hj, ⟨_, v', _, more', ej, ho⟩, ⟨b1, h1, h⟩, h' => by
    subst ej
    obtain ⟨c1, g1, g2⟩ := Out.bind_done h'
    obtain ⟨c2, g3, g4⟩ := Out.bind_done g1
    obtain ⟨e, ho⟩ := ho
    obtain rfl := Unspaced.scan_same hu e h1 g3
    exact StubMore.Same.ahead more more' path outer b1 b' b2 (fun h => ⟨(hk h).1.2, (hk h).2⟩) hj.2.2.2 ho h (by rw [g4]; exact g2)

theorem StubMore.Same.ahead {t u : Bytes} : ∀ (more : StubMore) (js : Items) (path outer : List Bytes) (b b' b2 : β),
    (top → js.Keys (· ≠ nameTop) ∧ path.head? ≠ some nameTop) → js.Meets .plain → more.Same t u js →
    more.Gives H (Onward H out u top) R path outer t b b' → (js.scan H R' path b).bind (H.end .array outer) = .done b2 → out b' <+: out b2
  | .nothing, js, path, outer, b, b', b2, hk, _, _, h, h' => by
    rw [show b' = b from h]
    obtain ⟨c1, g1, g2⟩ := Out.bind_done h'
    exact (Items.scan_grows hg js _ _ _ g1).trans (hg.end_grows g2)
  | .closed, js, path, outer, b, b', b2, hk, _, ho, h, h' => by
    obtain rfl := ho
    exact (end_fails h h').elim
  | .comma is, js, path, outer, b, b', b2, hk, hj, ho, h, h' => StubItems.Same.ahead is js path outer b b' b2 hk hj ho h h'

theorem StubMembers.Same.ahead {t u : Bytes} : ∀ (ms : StubMembers) (js : Members) (path : List Bytes) (b b' b2 : β),
    (top → js.Keys (· ≠ nameTop)) → js.Meets .plain → ms.Same t u js →
    ms.Gives H (Onward H out u top) R path t b b' → (js.scan H R' path b).bind (H.end .object path) = .done b2 → out b' <+: out b2
  | .closed, js, path, b, b', b2, hk, _, ho, h, h' => by
    obtain rfl := ho
    exact (end_fails h h').elim
  | .key _ k _, js, path, b, b', b2, hk, hj, ⟨_, _, n, v, _, more, s, ej, hc, e⟩, ⟨_, h⟩, h' => by
    subst ej
    obtain ⟨c1, g1, g2⟩ := Out.bind_done h'
    simp only [Members.scan] at g1
    split at g1
    · obtain ⟨c2, g3, g4⟩ := Out.bind_done g1
      obtain ⟨c3, g5, g6⟩ := Out.bind_done g3
      exact ((((h (fun _ e => nomatch e.1) n v s hj.2.2.2.1 hj.2.2.2.2.1 hc trivial e).trans (hg.around_start (Val.scan_grows hg v _) g5)).trans (hg.end_grows g6)).trans
        (Members.scan_grows hg more _ _ _ g4)).trans (hg.end_grows g2)
    · split at g1 <;> cases g1
  | .here _ k _ _ x, js, path, b, b', b2, hk, hj, ⟨_, _, _, v, _, more, ej, ho⟩, ⟨_, b1, h1, h⟩, h' => by
    subst ej
    obtain ⟨c1, g1, g2⟩ := Out.bind_done h'
    simp only [Members.scan] at g1
    split at g1
    · obtain ⟨c2, g3, g4⟩ := Out.bind_done g1
      obtain ⟨c3, g5, g6⟩ := Out.bind_done g3
      exact (((Stub.Same.ahead x v _ b1 b' c3 (fun h => ⟨(hk h).2.1, fun e => absurd (by injection e) (hk h).1⟩) hj.2.2.2.2.1 ho h (around_passes h1 g5)).trans (hg.end_grows g6)).trans
        (Members.scan_grows hg more _ _ _ g4)).trans (hg.end_grows g2)
    · split at g1 <;> cases g1
  | .ended _ k _ _ v, js, path, b, b', b2, hk, hj, ⟨_, _, _, v', _, more, ej, ho⟩, ⟨_, b1, h1, h⟩, h' => by
    subst ej
    obtain ⟨c1, g1, g2⟩ := Out.bind_done h'
    simp only [Members.scan] at g1
    split at g1
    · obtain ⟨c2, g3, g4⟩ := Out.bind_done g1
      obtain ⟨c3, g5, g6⟩ := Out.bind_done g3
      obtain rfl := Unspaced.around_same hu ho h1 g5
      exact (end_fails h g6).elim
    · split at g1 <;> cases g1
  | .later _ k _ _ v _ more, js, path, b, b', b2, hk, hj, ⟨_, _, _, v', _, more', ej, ho⟩, ⟨_, b1, b3, h1, h3, h⟩, h' => by
    subst ej
    obtain ⟨c1, g1, g2⟩ := Out.bind_done h'
    simp only [Members.scan] at g1
    split at g1
    · obtain ⟨c2, g3, g4⟩ := Out.bind_done g1
      obtain ⟨c3, g5, g6⟩ := Out.bind_done g3
      obtain ⟨e, ho⟩ := ho
      obtain rfl := Unspaced.around_same hu e h1 g5
      rw [h3] at g6
      injection g6 with g6
      subst g6
      exact StubRest.Same.ahead more more' path b3 b' b2 (fun h => (hk h).2.2) hj.2.2.2.2.2.2.2 ho h (by rw [g4]; exact g2)
    · split at g1 <;> cases g1

theorem StubRest.Same.ahead {t u : Bytes} : ∀ (more : StubRest) (js : Members) (path : List Bytes) (b b' b2 : β),
    (top → js.Keys (· ≠ nameTop)) → js.Meets .plain → more.Same t u js →
    more.Gives H (Onward H out u top) R path t b b' → (js.scan H R' path b).bind (H.end .object path) = .done b2 → out b' <+: out b2
  | .nothing, js, path, b, b', b2, hk, _, _, h, h' => by
    rw [show b' = b from h]
    obtain ⟨c1, g1, g2⟩ := Out.bind_done h'
    exact (Members.scan_grows hg js _ _ _ g1).trans (hg.end_grows g2)
  | .closed, js, path, b, b', b2, hk, _, ho, h, h' => by
    obtain rfl := ho
    exact (end_fails h h').elim
  | .comma ms, js, path, b, b', b2, hk, hj, ho, h, h' => StubMembers.Same.ahead ms js path b b' b2 hk hj ho h h'
end

/-- The same for documents. -/
theorem Docs.Same.ahead {t u tail : Bytes} {path : List Bytes} {x : Stub} : ∀ (ds' ds : Docs) (b b1 b' b2 : β), (∀ d ∈ ds, Rooted top path d.2) →
    Docs.Json ds tail → Docs.Same t u x ds' ds → Docs.scan H R path ds' b = .done b1 → x.Gives H (Onward H out u top) R path t b1 b' →
    Docs.scan H R' path ds b = .done b2 → out b' <+: out b2
  | [], [], b, b1, b', b2, _, _, ho, h1, h, h' => by
    obtain rfl := ho
    injection h1 with h1
    injection h' with h'
    rw [show b' = b1 from h, ← h1, ← h']
    exact List.prefix_rfl
  | [], (_, v) :: ds, b, b1, b', b2, hk, hj, ho, h1, h, h' => by
    injection h1 with h1
    subst h1
    obtain ⟨c1, g1, g2⟩ := Out.bind_done h'
    exact (Stub.Same.ahead hg hu x v path b b' c1 (hk _ (List.mem_cons_self ..)) hj.2.1 ho h g1).trans (Docs.scan_grows hg ds _ _ g2)
  | (_, v') :: ds', (_, v) :: ds, b, b1, b', b2, hk, hj, ⟨e, ho⟩, h1, h, h' => by
    obtain ⟨c1, g1, g2⟩ := Out.bind_done h'
    obtain ⟨c2, g3, g4⟩ := Out.bind_done h1
    obtain rfl := Unspaced.scan_same hu e g3 g1
    exact Docs.Same.ahead ds' ds c2 b1 b' b2 (fun d hd => hk d (List.mem_cons_of_mem _ hd)) hj.2.2.2 ho g4 h g2
end

end Verif.Scan
