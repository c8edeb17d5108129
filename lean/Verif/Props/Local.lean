import Verif.Proofs.Undo
/-!
# An edit changes the printed text only where it is made (C98)
-/
namespace Flo
open Spec

section
variable {T : PTree → PTree} {tgt n : Nat} {strict : Prop} {sub : PTree} {P P' : Str → Bool}

theorem part_none_of {n : Nat} : (∀ t : PTree, n ∉ t.ids → t.part n = none) ∧ (∀ ts : List PTree, n ∉ idsAll ts → partAll n ts = none) := by
  constructor
  · intro t h
    cases e : t.part n with
    | none => rfl
    | some s => exact absurd ((part_ids t e).1 _ ((part_ids t e).2 ▸ id_mem s)) h
  · intro ts h
    cases e : partAll n ts with
    | none => rfl
    | some s => exact absurd ((partAll_ids ts e).1 _ ((partAll_ids ts e).2 ▸ id_mem s)) h

mutual
theorem pass_part (hT : Passes T tgt strict) (hs : strict → tgt ≠ n) (hin : tgt ∈ sub.ids) :
    ∀ t : PTree, t.ids.Nodup → t.part n = some sub → (T t).part n = some (T sub)
  | .node m l ks, hnd, hp => by
    by_cases e : m = n
    · rw [PTree.part, if_pos e] at hp
      cases hp
      have := hT.id (.node m l ks)
      cases hx : T (.node m l ks) with
      | node m' l' ks' =>
        rw [hx] at this
        have this : m' = m := this
        rw [PTree.part, if_pos (this.trans e)]
    · rw [PTree.part, if_neg e] at hp
      rw [ids_node, List.nodup_cons] at hnd
      have hm : m ≠ tgt := by rintro rfl; exact hnd.1 ((partAll_ids ks hp).1 _ hin)
      obtain ⟨_, _, a3⟩ := pass_list (f := fun a _ => a) hT hs hin ks hnd.2 hp
      rw [hT.step m l ks hm a3, PTree.part, if_neg e]
      exact pass_partAll hT hs hin ks hnd.2 hp
theorem pass_partAll (hT : Passes T tgt strict) (hs : strict → tgt ≠ n) (hin : tgt ∈ sub.ids) :
    ∀ ks : List PTree, (idsAll ks).Nodup → partAll n ks = some sub → partAll n (ks.map T) = some (T sub)
  | [], _, hp => by simp [partAll] at hp
  | t :: ts, hnd, hp => by
    rw [idsAll_cons] at hnd
    obtain ⟨n1, n2, n3⟩ := List.nodup_append.mp hnd
    rw [partAll] at hp
    rw [List.map_cons, partAll]
    cases ht : t.part n with
    | some s =>
      rw [ht] at hp; cases hp
      rw [pass_part hT hs hin t n1 ht]; rfl
    | none =>
      rw [ht] at hp
      have htgt : tgt ∉ t.ids := fun h => n3 _ h _ ((partAll_ids ts hp).1 _ hin) rfl
      rw [hT.out t htgt, ht]
      exact pass_partAll hT hs hin ts n2 hp
end

/-- The text around the part at `n` is the same, or the part is not printed at all. -/
def SameAround (P P' : Str → Bool) (sub sub' : PTree) (x x' : Str) : Prop :=
  (∃ before behind, x = before ++ sub.plain.print P ++ behind ∧ x' = before ++ sub'.plain.print P' ++ behind) ∨ x = x'

theorem SameAround.wrap {sub sub' : PTree} {x x' : Str} (h : SameAround P P' sub sub' x x') (a b : Str) :
    SameAround P P' sub sub' (a ++ x ++ b) (a ++ x' ++ b) := by
  rcases h with ⟨u, v, rfl, rfl⟩ | rfl
  · exact Or.inl ⟨a ++ u, v ++ b, by simp only [List.append_assoc], by simp only [List.append_assoc]⟩
  · exact Or.inr rfl

mutual
theorem pass_print (hT : Passes T tgt strict) (hs : strict → tgt ≠ n) (hin : tgt ∈ sub.ids) :
    ∀ t : PTree, t.ids.Nodup → t.part n = some sub → (∀ k tag ps bs, (k, Label.elem tag ps bs) ∈ t.entries → P tag = P' tag) →
      (∀ k, (k, Label.root) ∉ t.entries) → SameAround P P' sub (T sub) (t.plain.print P) ((T t).plain.print P')
  | .node m l ks, hnd, hp, hP, hr => by
    by_cases e : m = n
    · rw [PTree.part, if_pos e] at hp
      cases hp
      exact Or.inl ⟨[], [], by simp, by simp⟩
    · rw [PTree.part, if_neg e] at hp
      rw [ids_node, List.nodup_cons] at hnd
      have hm : m ≠ tgt := by rintro rfl; exact hnd.1 ((partAll_ids ks hp).1 _ hin)
      obtain ⟨_, _, a3⟩ := pass_list (f := fun a _ => a) hT hs hin ks hnd.2 hp
      rw [hT.step m l ks hm a3]
      rw [PTree.entries] at hP hr
      have ih := pass_printAll hT hs hin ks hnd.2 hp (fun k tag ps bs hk => hP k tag ps bs (List.mem_cons_of_mem _ hk))
        (fun k hk => hr k (List.mem_cons_of_mem _ hk))
      cases l with
      | root => exact absurd List.mem_cons_self (hr m)
      | text raw => exact Or.inr rfl
      | elem tag ps bs =>
        have hp := hP m tag ps bs List.mem_cons_self
        simp only [PTree.plain, Tree.print, ← hp]
        split
        · have := (ih.wrap b!">" (b!"</" ++ tag ++ b!">")).wrap (b!"<" ++ tag ++ boolsText bs ++ pairsText ps) []
          simpa only [List.append_assoc, List.append_nil] using this
        · exact Or.inr rfl
theorem pass_printAll (hT : Passes T tgt strict) (hs : strict → tgt ≠ n) (hin : tgt ∈ sub.ids) :
    ∀ ks : List PTree, (idsAll ks).Nodup → partAll n ks = some sub → (∀ k tag ps bs, (k, Label.elem tag ps bs) ∈ entriesAll ks → P tag = P' tag) →
      (∀ k, (k, Label.root) ∉ entriesAll ks) →
      SameAround P P' sub (T sub) (printAll P (plainAll ks)) (printAll P' (plainAll (ks.map T)))
  | [], _, hp, _, _ => by simp [partAll] at hp
  | t :: ts, hnd, hp, hP, hr => by
    rw [idsAll_cons] at hnd
    obtain ⟨n1, n2, n3⟩ := List.nodup_append.mp hnd
    rw [partAll] at hp
    rw [entriesAll] at hP hr
    rw [List.map_cons, plainAll, plainAll, printAll, printAll]
    cases ht : t.part n with
    | some s =>
      rw [ht] at hp; cases hp
      have htgt : tgt ∉ idsAll ts := fun h => n3 _ ((part_ids t ht).1 _ hin) _ h rfl
      rw [map_out hT.out htgt, ← pageAll_congr (f := P) (g := P') ts (fun k tag ps bs hk => hP k tag ps bs (List.mem_append_right _ hk))
        (fun k hk => hr k (List.mem_append_right _ hk))]
      exact (pass_print hT hs hin t n1 ht (fun k tag ps bs hk => hP k tag ps bs (List.mem_append_left _ hk))
        (fun k hk => hr k (List.mem_append_left _ hk))).wrap [] _
    | none =>
      rw [ht] at hp
      have htgt : tgt ∉ t.ids := fun h => n3 _ h _ ((partAll_ids ts hp).1 _ hin) rfl
      rw [hT.out t htgt, ← page_congr (f := P) (g := P') t (fun k tag ps bs hk => hP k tag ps bs (List.mem_append_left _ hk))
        (fun k hk => hr k (List.mem_append_left _ hk))]
      have := (pass_printAll hT hs hin ts n2 hp (fun k tag ps bs hk => hP k tag ps bs (List.mem_append_right _ hk))
        (fun k hk => hr k (List.mem_append_right _ hk))).wrap (t.plain.print P) []
      simpa only [List.append_nil] using this
end

end

/-- How a page prints its elements. -/
def Spec.Page.paired (pg : Page) (tag : Str) : Bool := (firstForm pg.forms tag).getD false

/-- Locality: an edit of node `n` or of nodes below it (that does not take `n` away) changes the printed text only where `n` is printed:
the text before and behind it stays, between them is what `n` now prints as.  (If `n` is within an element that is printed without
content, nothing changes.) -/
theorem C98_print_is_local (d : Dom) (h : Reachable d) (pg : Page) (hs : Shows d pg) (answer : Nat → Bool) (op : Op) (ha : pg.Allows answer op)
    (hr : Room d op.cost) (n : Nat) (hn : n ≠ rootID) (hin : pg.Inside n op) :
    ∃ d' sub sub', runOp (fun i => .ok (answer i)) op d = .ok d' ∧ Shows d' (pg.step answer op) ∧
      pg.root.part n = some sub ∧ (pg.step answer op).root.part n = some sub' ∧
      ((∃ before behind, printHTML d = .ok (before ++ sub.plain.print pg.paired ++ behind) ∧
          printHTML d' = .ok (before ++ sub'.plain.print (pg.step answer op).paired ++ behind)) ∨ printHTML d' = printHTML d) := by
  have hi := (reach_domI h).1
  obtain ⟨d', e, h', s', _⟩ := C95_step d h pg hs answer op ha hr
  obtain ⟨sub, l, hp, ht, htk⟩ := hin
  have hT := passes_on op (numberAll pg.next (op.brings answer))
  have hm : op.target ∈ sub.ids := List.mem_map.mpr ⟨_, ht, rfl⟩
  have hnd := hs.nodup hi
  refine ⟨d', sub, op.on (numberAll pg.next (op.brings answer)) sub, e, s', hp, pass_part hT htk hm _ hnd hp, ?_⟩
  rw [(C95_print d' h' _ s').1, (C95_print d h pg hs).1]
  have hroot : (pg.step answer op).root = op.on (numberAll pg.next (op.brings answer)) pg.root := rfl
  have hfs : (pg.step answer op).forms = pg.forms ++ op.names answer := rfl
  generalize pg.step answer op = pg2 at hroot hfs
  obtain ⟨ks, hk⟩ := hs.root
  have hpk : partAll n ks = some sub := by
    have := hp
    rw [hk, PTree.part, if_neg hn.symm] at this
    exact this
  have hndk := hnd
  rw [hk, ids_node, List.nodup_cons] at hndk
  have hmt : rootID ≠ op.target := by
    intro hc
    exact hndk.1 (hc ▸ (partAll_ids ks hpk).1 _ hm)
  obtain ⟨_, _, a3⟩ := pass_list (f := fun a _ => a) hT htk hm ks hndk.2 hpk
  have hout : SameAround pg.paired pg2.paired sub (op.on (numberAll pg.next (op.brings answer)) sub) pg.print pg2.print := by
    have := pass_printAll (P := pg.paired) (P' := pg2.paired) hT htk hm ks hndk.2 hpk (fun k tag ps bs hx => ?_) (fun k hx => ?_)
    · unfold Page.print Page.trees
      rw [hroot, hk, hT.step _ _ _ hmt a3]
      exact this
    · have h1 := (hs.entry hi (l := .elem tag ps bs) (n := k) (by rw [hk, PTree.entries]; exact List.mem_cons_of_mem _ hx)).1
      obtain ⟨b, hb⟩ := form_of_tag hi h1.1
      rw [hs.forms] at hb
      unfold Page.paired
      rw [hfs, firstForm_append, hb]; rfl
    · have h1 := (hs.entry hi (l := .root) (n := k) (by rw [hk, PTree.entries]; exact List.mem_cons_of_mem _ hx)).1
      have h1 : k = rootID := h1
      subst h1
      exact hndk.1 (List.mem_map.mpr ⟨_, hx, rfl⟩)
  rcases hout with ⟨u, v, h1, h2⟩ | h1
  · exact Or.inl ⟨u, v, by rw [h1], by rw [h2]⟩
  · exact Or.inr (by rw [h1])

/-! ## A concrete case -/

example : (Page.load b!"x<p><b>a</b></p>y").Inside 4 (.appendHTML 4 b!"<i>z</i>") := ⟨_, .elem b!"b" [] [], rfl, .head _, fun h => by cases h⟩
example : (Page.load b!"x<p><b>a</b></p>y").Allows (fun _ => true) (.appendHTML 4 b!"<i>z</i>") :=
  ⟨⟨.elem b!"b" [] [], .tail _ (.tail _ (.tail _ (.head _))), rfl⟩, _, rfl, List.cons_ne_nil _ _⟩
example : (Page.load b!"x<p><b>a</b></p>y").print = b!"x<p>" ++ b!"<b>a</b>" ++ b!"</p>y" ∧
    ((Page.load b!"x<p><b>a</b></p>y").step (fun _ => true) (.appendHTML 4 b!"<i>z</i>")).print =
      b!"x<p>" ++ b!"<b>a<i>z</i></b>" ++ b!"</p>y" := by decide +kernel

end Flo
