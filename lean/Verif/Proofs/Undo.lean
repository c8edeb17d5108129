import Verif.Spec.Undo
import Verif.Props.Page
/-!
# Edits that leave no trace (C96)
-/
namespace Flo
open Spec

/-! ## The numbers of a tree -/

def Spec.PTree.ids (t : PTree) : List Nat := t.entries.map Prod.fst
def idsAll (ts : List PTree) : List Nat := (entriesAll ts).map Prod.fst

theorem ids_node (m : Nat) (l : Label) (ks : List PTree) : (PTree.node m l ks).ids = m :: idsAll ks := by
  unfold PTree.ids idsAll; rw [PTree.entries]; rfl
theorem idsAll_nil : idsAll [] = [] := rfl
theorem idsAll_cons (t : PTree) (ts : List PTree) : idsAll (t :: ts) = t.ids ++ idsAll ts := by
  unfold PTree.ids idsAll; rw [entriesAll, List.map_append]
theorem id_mem (t : PTree) : t.id ∈ t.ids := by
  cases t with
  | node m l ks => rw [ids_node]; exact List.mem_cons_self
theorem mem_idsAll : ∀ {ts : List PTree} {t : PTree}, t ∈ ts → ∀ n ∈ t.ids, n ∈ idsAll ts
  | [], t, h, _, _ => by cases h
  | s :: ts, t, h, n, hn => by
    rw [idsAll_cons, List.mem_append]
    rcases List.mem_cons.mp h with rfl | h
    · exact Or.inl hn
    · exact Or.inr (mem_idsAll h n hn)
theorem tops_mem {ts : List PTree} {n : Nat} (h : n ∈ ts.map PTree.id) : n ∈ idsAll ts := by
  obtain ⟨t, ht, rfl⟩ := List.mem_map.mp h
  exact mem_idsAll ht _ (id_mem t)

mutual
theorem part_ids {n : Nat} {sub : PTree} : ∀ (t : PTree), t.part n = some sub → (∀ x ∈ sub.ids, x ∈ t.ids) ∧ sub.id = n
  | .node m l ks, h => by
    rw [PTree.part] at h
    split at h
    · cases h; rename_i e; exact ⟨fun _ hx => hx, e⟩
    · obtain ⟨h1, h2⟩ := partAll_ids ks h
      exact ⟨fun x hx => by rw [ids_node]; exact List.mem_cons_of_mem _ (h1 x hx), h2⟩
theorem partAll_ids {n : Nat} {sub : PTree} : ∀ (ts : List PTree), partAll n ts = some sub → (∀ x ∈ sub.ids, x ∈ idsAll ts) ∧ sub.id = n
  | [], h => by simp [partAll] at h
  | t :: ts, h => by
    rw [partAll] at h
    rw [idsAll_cons]
    cases ht : t.part n with
    | some s =>
      rw [ht] at h; cases h
      obtain ⟨h1, h2⟩ := part_ids t ht
      exact ⟨fun x hx => List.mem_append_left _ (h1 x hx), h2⟩
    | none =>
      rw [ht] at h
      obtain ⟨h1, h2⟩ := partAll_ids ts h
      exact ⟨fun x hx => List.mem_append_right _ (h1 x hx), h2⟩
end

theorem part_top {n : Nat} {sub t : PTree} (h : t.part n = some sub) (hnd : t.ids.Nodup) (hne : t.id ≠ n) : t.id ∉ sub.ids := by
  cases t with
  | node m l ks =>
    have hne : m ≠ n := hne
    rw [PTree.part, if_neg hne] at h
    rw [ids_node, List.nodup_cons] at hnd
    intro hm
    exact hnd.1 ((partAll_ids ks h).1 _ hm)

/-! ## Operations on one part pass through the rest -/

/-- A change at `tgt`: it leaves alone what does not contain `tgt`, and passes through nodes above. -/
structure Passes (T : PTree → PTree) (tgt : Nat) (strict : Prop) : Prop where
  id : ∀ t, (T t).id = t.id
  out : ∀ t : PTree, tgt ∉ t.ids → T t = t
  step : ∀ m l ks, m ≠ tgt → (strict → tgt ∉ ks.map PTree.id) → T (.node m l ks) = .node m l (ks.map T)

theorem map_out {T : PTree → PTree} {tgt : Nat} (h : ∀ t : PTree, tgt ∉ t.ids → T t = t) : ∀ {ts : List PTree}, tgt ∉ idsAll ts → ts.map T = ts
  | [], _ => rfl
  | t :: ts, hn => by
    rw [idsAll_cons, List.mem_append, not_or] at hn
    rw [List.map_cons, h t hn.1, map_out h hn.2]

theorem around_cons_ne {n : Nat} {t : PTree} {ts : List PTree} (h : t.id ≠ n) : around n (t :: ts) = (around n ts).map fun x => (t :: x.1, x.2) := by
  rw [around, if_neg h]

section
variable {T : PTree → PTree} {tgt n : Nat} {strict : Prop} {f : List PTree → List PTree → List PTree} {sub : PTree}

mutual
theorem pass_tree (hT : Passes T tgt strict) (hs : strict → tgt ≠ n) (hin : tgt ∈ sub.ids) :
    ∀ t : PTree, t.ids.Nodup → t.id ≠ n → t.part n = some sub →
      (T t).siblings n = t.siblings n ∧ (T t).instead n f = t.instead n f
  | .node m l ks, hnd, hne, hp => by
    have hne : m ≠ n := hne
    rw [PTree.part, if_neg hne] at hp
    rw [ids_node, List.nodup_cons] at hnd
    have h1 := (partAll_ids ks hp).1 _ hin
    have hm : m ≠ tgt := by rintro rfl; exact hnd.1 h1
    obtain ⟨a1, a2, a3⟩ := pass_list hT hs hin ks hnd.2 hp
    rw [hT.step m l ks hm a3, PTree.siblings, PTree.siblings, PTree.instead, PTree.instead, a1]
    cases ha : around n ks with
    | some x => exact ⟨rfl, rfl⟩
    | none =>
      obtain ⟨b1, b2⟩ := a2 ha
      simp only [b1, b2, and_self]
theorem pass_list (hT : Passes T tgt strict) (hs : strict → tgt ≠ n) (hin : tgt ∈ sub.ids) :
    ∀ ks : List PTree, (idsAll ks).Nodup → partAll n ks = some sub →
      around n (ks.map T) = around n ks ∧
      (around n ks = none → siblingsAll n (ks.map T) = siblingsAll n ks ∧ insteadAll n f (ks.map T) = insteadAll n f ks) ∧
      (strict → tgt ∉ ks.map PTree.id)
  | [], _, hp => by simp [partAll] at hp
  | t :: ts, hnd, hp => by
    rw [idsAll_cons] at hnd
    obtain ⟨n1, n2, n3⟩ := List.nodup_append.mp hnd
    rw [partAll] at hp
    cases ht : t.part n with
    | some s =>
      rw [ht] at hp; cases hp
      have h1 := part_ids t ht
      have htgt : tgt ∉ idsAll ts := fun h => n3 _ (h1.1 _ hin) _ h rfl
      have hn : n ∉ idsAll ts := fun h => n3 _ (h1.1 _ (h1.2 ▸ id_mem sub)) _ h rfl
      have hna : around n ts = none := around_none.mpr fun h => hn (tops_mem h)
      rw [List.map_cons, map_out hT.out htgt]
      by_cases e : t.id = n
      · have e' : (T t).id = n := (hT.id t).trans e
        refine ⟨by rw [around, around, if_pos e, if_pos e'], fun ha => ?_, fun hst hc => ?_⟩
        · rw [around, if_pos e] at ha; cases ha
        · rw [List.map_cons, List.mem_cons, e] at hc
          rcases hc with hc | hc
          · exact hs hst hc
          · exact htgt (tops_mem hc)
      · have e' : (T t).id ≠ n := by rw [hT.id]; exact e
        obtain ⟨b1, b2⟩ := pass_tree hT hs hin t n1 e ht
        refine ⟨by rw [around_cons_ne e, around_cons_ne e', hna]; rfl, fun _ => ?_, fun hst hc => ?_⟩
        · rw [siblingsAll, siblingsAll, insteadAll, insteadAll, b1, b2]; exact ⟨rfl, rfl⟩
        · rw [List.map_cons, List.mem_cons] at hc
          rcases hc with hc | hc
          · exact part_top ht n1 e (hc ▸ hin)
          · exact htgt (tops_mem hc)
    | none =>
      rw [ht] at hp
      have h1 := partAll_ids ts hp
      have htgt : tgt ∉ t.ids := fun h => n3 _ h _ (h1.1 _ hin) rfl
      have hn : n ∉ t.ids := fun h => n3 _ h _ (h1.1 _ (h1.2 ▸ id_mem sub)) rfl
      have e : t.id ≠ n := fun h => hn (h ▸ id_mem t)
      obtain ⟨b1, b2, b3⟩ := pass_list hT hs hin ts n2 hp
      rw [List.map_cons, hT.out t htgt]
      refine ⟨by rw [around_cons_ne e, around_cons_ne e, b1], fun ha => ?_, fun hst hc => ?_⟩
      · rw [around_cons_ne e] at ha
        obtain ⟨c1, c2⟩ := b2 (by simpa using ha)
        rw [siblingsAll, siblingsAll, insteadAll, insteadAll, c1, c2]; exact ⟨rfl, rfl⟩
      · rw [List.map_cons, List.mem_cons] at hc
        rcases hc with hc | hc
        · exact htgt (hc ▸ id_mem t)
        · exact b3 hst hc
end
end

/-! ## The operations -/

mutual
theorem relabel_out {n : Nat} {f : Label → Label} : ∀ t : PTree, n ∉ t.ids → t.relabel n f = t
  | .node m l ks, h => by
    rw [ids_node, List.mem_cons, not_or] at h
    rw [PTree.relabel, if_neg (fun e => h.1 e.symm), relabelAll_out ks h.2]
theorem relabelAll_out {n : Nat} {f : Label → Label} : ∀ ts : List PTree, n ∉ idsAll ts → relabelAll n f ts = ts
  | [], _ => rfl
  | t :: ts, h => by
    rw [idsAll_cons, List.mem_append, not_or] at h
    rw [relabelAll, relabel_out t h.1, relabelAll_out ts h.2]
end

mutual
theorem within_out {n : Nat} {f : List PTree → List PTree} : ∀ t : PTree, n ∉ t.ids → t.within n f = t
  | .node m l ks, h => by
    rw [ids_node, List.mem_cons, not_or] at h
    rw [PTree.within, if_neg (fun e => h.1 e.symm), withinAll_out ks h.2]
theorem withinAll_out {n : Nat} {f : List PTree → List PTree} : ∀ ts : List PTree, n ∉ idsAll ts → withinAll n f ts = ts
  | [], _ => rfl
  | t :: ts, h => by
    rw [idsAll_cons, List.mem_append, not_or] at h
    rw [withinAll, within_out t h.1, withinAll_out ts h.2]
end

mutual
theorem instead_out {n : Nat} {f : List PTree → List PTree → List PTree} : ∀ t : PTree, n ∉ t.ids → t.instead n f = t
  | .node m l ks, h => by
    rw [ids_node, List.mem_cons, not_or] at h
    rw [PTree.instead, around_none.mpr (fun hc => h.2 (tops_mem hc))]
    dsimp only
    rw [insteadAll_out ks h.2]
theorem insteadAll_out {n : Nat} {f : List PTree → List PTree → List PTree} : ∀ ts : List PTree, n ∉ idsAll ts → insteadAll n f ts = ts
  | [], _ => rfl
  | t :: ts, h => by
    rw [idsAll_cons, List.mem_append, not_or] at h
    rw [insteadAll, instead_out t h.1, insteadAll_out ts h.2]
end

theorem passes_relabel (n : Nat) (f : Label → Label) (s : Prop) : Passes (PTree.relabel n f) n s where
  id t := by cases t; rw [PTree.relabel]; rfl
  out := relabel_out
  step m l ks h _ := by rw [PTree.relabel, if_neg h, relabelAll_map]

theorem passes_within (n : Nat) (f : List PTree → List PTree) (s : Prop) : Passes (PTree.within n f) n s where
  id t := by cases t; rw [PTree.within]; rfl
  out := within_out
  step m l ks h _ := by rw [PTree.within, if_neg h, withinAll_map]

theorem passes_instead (n : Nat) (f : List PTree → List PTree → List PTree) {s : Prop} (hs : s) : Passes (PTree.instead n f) n s where
  id t := by cases t; rw [PTree.instead]; rfl
  out := instead_out
  step m l ks _ h := by rw [PTree.instead, around_none.mpr (h hs)]; dsimp only; rw [insteadAll_map]

theorem passes_on (op : Op) (new : List PTree) : Passes (op.on new) op.target (op.takes = true) := by
  cases op <;> first
    | exact passes_relabel _ _ _
    | exact passes_within _ _ _
    | exact passes_instead _ _ rfl

/-! ## The page of a DOM has no number twice -/

section
variable {d : Dom}

mutual
theorem shown_ids (hi : DomI d (kids d)) : ∀ t : PTree, t.Shown d → t.id < d.nodes.length → t.ids = pre d.nodes.length (kids d) t.id
  | .node n l ks, h, hn => by
    have hn : n < d.nodes.length := hn
    rw [PTree.Shown] at h
    rw [ids_node, PTree.id, pre_eq hi.linked.up hn, h.2.1]
    rw [shownAll_ids hi ks h.2.2.2 (fun t ht => (hi.linked.range n t.id (by rw [h.2.1]; exact List.mem_map_of_mem ht)).2.2)]
theorem shownAll_ids (hi : DomI d (kids d)) : ∀ ts : List PTree, ShownAll d ts → (∀ t ∈ ts, t.id < d.nodes.length) →
    idsAll ts = (ts.map PTree.id).flatMap (pre d.nodes.length (kids d))
  | [], _, _ => rfl
  | t :: ts, h, hn => by
    rw [ShownAll] at h
    rw [idsAll_cons, List.map_cons, List.flatMap_cons, shown_ids hi t h.1 (hn t (by simp)),
      shownAll_ids hi ts h.2 (fun t ht => hn t (by simp [ht]))]
end

theorem Spec.Shows.nodup (hi : DomI d (kids d)) {pg : Page} (hs : Shows d pg) : pg.root.ids.Nodup := by
  have h2 := hi.linked.two
  have hr : rootID < d.nodes.length := by show 1 < _; omega
  rw [shown_ids hi _ hs.tree (by rw [hs.id]; exact hr)]
  exact pre_nodup' hi.linked.up hi.linked.uniq hi.linked.nodup _ (by rw [hs.id]; exact hr)

theorem Spec.Shows.fresh (hi : DomI d (kids d)) {pg : Page} (hs : Shows d pg) : pg.next ∉ pg.root.ids := by
  intro hm
  obtain ⟨⟨n, l⟩, h1, h2⟩ := List.mem_map.mp hm
  have := (hs.entry hi h1).2.2
  dsimp only at h2
  rw [hs.next] at this; omega

/-! ## Names on record -/

theorem form_of_tag (hi : DomI d (kids d)) {n : Nat} {tag : Str} (h : tagOf d n = some tag) : ∃ b, formOf d tag = some b := by
  unfold tagOf at h
  split at h
  · rename_i t hget
    rw [Option.map_eq_some_iff] at h
    obtain ⟨r, hr, rfl⟩ := h
    obtain ⟨t', e1, e2, e3⟩ := (hi.good n _ hget).doc rfl
    cases e1
    have hm : r ∈ d.tagReg.drop 1 := by
      refine List.mem_of_getElem? (i := t - 1) ?_
      rw [List.getElem?_drop, show 1 + (t - 1) = t by omega]; exact hr
    unfold formOf firstForm
    cases hf : (d.tagReg.drop 1).find? (fun u => u.1 == r.1) with
    | none => have := List.find?_eq_none.mp hf r hm; simp at this
    | some x => exact ⟨x.2, rfl⟩
  · cases h

end

mutual
theorem page_congr {f g : Str → Bool} : ∀ t : PTree, (∀ n tag ps bs, (n, Label.elem tag ps bs) ∈ t.entries → f tag = g tag) →
    (∀ n, (n, Label.root) ∉ t.entries) → t.plain.print f = t.plain.print g
  | .node n .root ks, _, hr => absurd (by rw [PTree.entries]; exact List.mem_cons_self) (hr n)
  | .node n (.text raw) ks, _, _ => by simp only [PTree.plain, Tree.print]
  | .node n (.elem tag ps bs) ks, h, hr => by
    rw [PTree.entries] at hr
    have h0 := h n tag ps bs (by rw [PTree.entries]; exact List.mem_cons_self)
    have := pageAll_congr (f := f) (g := g) ks (fun m tag ps bs hm => h m tag ps bs (by rw [PTree.entries]; exact List.mem_cons_of_mem _ hm))
      (fun m hm => hr m (List.mem_cons_of_mem _ hm))
    simp only [PTree.plain, Tree.print, h0, this]
theorem pageAll_congr {f g : Str → Bool} : ∀ ts : List PTree, (∀ n tag ps bs, (n, Label.elem tag ps bs) ∈ entriesAll ts → f tag = g tag) →
    (∀ n, (n, Label.root) ∉ entriesAll ts) → printAll f (plainAll ts) = printAll g (plainAll ts)
  | [], _, _ => rfl
  | t :: ts, h, hr => by
    rw [entriesAll] at h hr
    simp only [plainAll, printAll]
    rw [page_congr t (fun n tag ps bs hm => h n tag ps bs (List.mem_append_left _ hm)) (fun n hm => hr n (List.mem_append_left _ hm)),
      pageAll_congr ts (fun n tag ps bs hm => h n tag ps bs (List.mem_append_right _ hm)) (fun n hm => hr n (List.mem_append_right _ hm))]
end

/-- Later uses of names do not change how the page prints. -/
theorem print_more {d : Dom} (hi : DomI d (kids d)) {pg pg2 : Page} (hs : Shows d pg) (hr : pg2.root = pg.root) {us : List (Str × Bool)}
    (hf : pg2.forms = pg.forms ++ us) : pg2.print = pg.print := by
  obtain ⟨ks, e⟩ := hs.root
  unfold Page.print Page.trees
  rw [hr, e, hf]
  dsimp only
  refine pageAll_congr ks (fun n tag ps bs hm => ?_) (fun n hm => ?_)
  · have h1 := (hs.entry hi (l := .elem tag ps bs) (n := n) (by rw [e, PTree.entries]; exact List.mem_cons_of_mem _ hm)).1
    obtain ⟨b, hb⟩ := form_of_tag hi h1.1
    rw [hs.forms] at hb
    rw [firstForm_append, hb]; rfl
  · have h1 := (hs.entry hi (l := .root) (n := n) (by rw [e, PTree.entries]; exact List.mem_cons_of_mem _ hm)).1
    have h1 : n = rootID := h1
    subst h1
    have hnd := hs.nodup hi
    rw [e, ids_node, List.nodup_cons] at hnd
    exact hnd.1 (List.mem_map.mpr ⟨_, hm, rfl⟩)

theorem run_forms (ops : List (Op × (Nat → Bool))) : ∀ pg : Page, ∃ us, (pg.run ops).forms = pg.forms ++ us := by
  induction ops with
  | nil => intro pg; exact ⟨[], by rw [List.append_nil]; rfl⟩
  | cons o ops ih =>
    intro pg
    obtain ⟨us, h⟩ := ih (pg.step o.2 o.1)
    exact ⟨o.1.names o.2 ++ us, by rw [Page.run, h, ← List.append_assoc]; rfl⟩

/-! ## Taking away what was added -/

theorem around_at {n : Nat} : ∀ {a : List PTree} {t : PTree} {b : List PTree}, n ∉ a.map PTree.id → t.id = n → around n (a ++ t :: b) = some (a, b)
  | [], t, b, _, e => by rw [List.nil_append, around, if_pos e]
  | s :: a, t, b, h, e => by
    rw [List.map_cons, List.mem_cons, not_or] at h
    rw [List.cons_append, around_cons_ne (fun x => h.1 x.symm), around_at h.2 e]; rfl

theorem between_append {ks : List PTree} {N : Nat} {tag : Str} {ps : List (Str × Str)} {bs : List Str} {js : List PTree} :
    between ks [.node N (.elem tag ps bs) js] [] = ks ++ [.node N (.elem tag ps bs) js] := by
  unfold between
  rw [mergeLeft_keep (fun _ _ _ _ _ _ _ _ _ e => by cases e)]
  dsimp only
  rw [mergeRight_keep (fun _ _ _ _ _ _ _ _ e => by cases e)]
  simp

theorem between_prepend {ks : List PTree} {N : Nat} {tag : Str} {ps : List (Str × Str)} {bs : List Str} {js : List PTree} :
    between [] [.node N (.elem tag ps bs) js] ks = .node N (.elem tag ps bs) js :: ks := by
  unfold between
  rw [mergeLeft_keep (fun _ _ _ _ _ _ _ _ _ e => by cases e)]
  dsimp only
  rw [mergeRight_keep (fun _ _ _ _ _ _ _ X' _ e => ?_)]
  · simp
  · have := (List.append_inj' (s₁ := []) e rfl).2
    cases this

mutual
theorem undo_tree {p N : Nat} {g : List PTree → List PTree} (hg : ∀ ks, ∃ a new b, ks = a ++ b ∧ g ks = a ++ new :: b ∧ new.id = N) :
    ∀ t : PTree, N ∉ t.ids → (t.within p g).instead N (fun a b => a ++ b) = t
  | .node m l ks, h => by
    rw [ids_node, List.mem_cons, not_or] at h
    rw [PTree.within]
    by_cases e : m = p
    · rw [if_pos e]
      obtain ⟨a, new, b, h1, h2, h3⟩ := hg ks
      have ha : N ∉ a.map PTree.id := fun hc => h.2 (tops_mem (by rw [h1]; simp at hc ⊢; exact Or.inl hc))
      rw [h2, PTree.instead, around_at ha h3, h1]
    · rw [if_neg e, PTree.instead, around_none.mpr ?_]
      · dsimp only
        rw [undo_list hg ks h.2]
      · rw [withinAll_map, List.map_map]
        intro hc
        refine h.2 (tops_mem ?_)
        have : (PTree.id ∘ PTree.within p g) = PTree.id := by funext t; exact (passes_within p g True).id t
        rw [this] at hc; exact hc
theorem undo_list {p N : Nat} {g : List PTree → List PTree} (hg : ∀ ks, ∃ a new b, ks = a ++ b ∧ g ks = a ++ new :: b ∧ new.id = N) :
    ∀ ts : List PTree, N ∉ idsAll ts → insteadAll N (fun a b => a ++ b) (withinAll p g ts) = ts
  | [], _ => rfl
  | t :: ts, h => by
    rw [idsAll_cons, List.mem_append, not_or] at h
    rw [withinAll, insteadAll, undo_tree hg t h.1, undo_list hg ts h.2]
end

end Flo
