import Verif.Proofs.Trace
import Verif.Proofs.Intern
import Verif.Spec.Attrs
/-!
# Name tables and attribute rows
-/
namespace Flo
open Spec

structure NamesOK (d : Dom) : Prop where
  tag : MapOK d.tagMap (d.tagReg.map (·.1))
  bool : MapOK d.boolMap d.boolReg
  key : MapOK d.keyMap d.keyReg
  val : MapOK d.valMap d.valReg
  propsLt : ∀ r ∈ d.props, r.key < d.keyReg.length ∧ r.value < d.valReg.length
  propsNz : ∀ r ∈ d.props, r.node ≠ 0 → r.key ≠ 0 ∧ r.value ≠ 0
  boolsLt : ∀ r ∈ d.boolProps, r.2 < d.boolReg.length
  boolsNz : ∀ r ∈ d.boolProps, r.1 ≠ 0 → r.2 ≠ 0
  tag0 : ∃ p, d.tagReg[0]? = some ([], p)

theorem NamesOK.init : NamesOK Dom.init where
  tag := MapOK.empty
  bool := MapOK.empty
  key := MapOK.empty
  val := MapOK.empty
  propsLt := by simp [Dom.init]
  propsNz := by simp [Dom.init]
  boolsLt := by simp [Dom.init]
  boolsNz := by simp [Dom.init]
  tag0 := ⟨_, rfl⟩

/-- The shape every interning takes. -/
theorem MapOK.insert_ok {m : AutoMap} {reg : List Str} (h : MapOK m reg) {k : Str} {r : Inserted}
    (hr : m.insert k = .ok r) :
    r.entryIndex ≠ 0 ∧ MapOK r.map (if r.wasInserted then reg ++ [k] else reg) ∧
    (if r.wasInserted then reg ++ [k] else reg)[r.entryIndex]? = some k ∧
    reg <+: (if r.wasInserted then reg ++ [k] else reg) := by
  have := h.insert k
  rw [hr] at this
  obtain ⟨h1, h2⟩ := this
  refine ⟨h1, ?_⟩
  split at h2
  · rename_i hw
    rw [hw]
    obtain ⟨_, _, e, h3⟩ := h2
    refine ⟨by simpa using h3, ?_, ?_⟩
    · rw [e]; simp
    · simp
  · rename_i hw
    have hw : r.wasInserted = false := by simpa using hw
    rw [hw]
    obtain ⟨_, e, h3⟩ := h2
    refine ⟨by rw [e]; simpa using h, by simpa using h3, by simp⟩

theorem prefix_getD {l l' : List Str} (h : l <+: l') {i : Nat} (hi : i < l.length) :
    l'.getD i [] = l.getD i [] := by
  obtain ⟨t, rfl⟩ := h
  simp [List.getD_eq_getElem?_getD, List.getElem?_append_left hi]

theorem getD_of_some {l : List Str} {i : Nat} {s : Str} (h : l[i]? = some s) : l.getD i [] = s := by
  simp [List.getD_eq_getElem?_getD, h]

theorem lt_of_some {α : Type} {l : List α} {i : Nat} {s : α} (h : l[i]? = some s) : i < l.length :=
  (List.getElem?_eq_some_iff.mp h).1

theorem internKey_spec {s : Str} {d d' : Dom} {k : Nat} (hd : NamesOK d) (h : internKey s d = .ok (k, d')) :
    (∃ m r, d' = { d with keyMap := m, keyReg := r }) ∧ k ≠ 0 ∧ d'.keyReg[k]? = some s ∧
    d.keyReg <+: d'.keyReg ∧ NamesOK d' := by
  simp only [internKey, Out.bind_eq_ok] at h
  obtain ⟨r, hr, e⟩ := h
  cases e
  obtain ⟨h1, h2, h3, h4⟩ := hd.key.insert_ok hr
  refine ⟨⟨_, _, rfl⟩, h1, h3, h4, { hd with key := h2, propsLt := ?_ }⟩
  intro q hq
  have := hd.propsLt q hq
  exact ⟨Nat.lt_of_lt_of_le this.1 h4.length_le, this.2⟩

theorem internVal_spec {s : Str} {d d' : Dom} {k : Nat} (hd : NamesOK d) (h : internVal s d = .ok (k, d')) :
    (∃ m r, d' = { d with valMap := m, valReg := r }) ∧ k ≠ 0 ∧ d'.valReg[k]? = some s ∧
    d.valReg <+: d'.valReg ∧ NamesOK d' := by
  simp only [internVal, Out.bind_eq_ok] at h
  obtain ⟨r, hr, e⟩ := h
  cases e
  obtain ⟨h1, h2, h3, h4⟩ := hd.val.insert_ok hr
  refine ⟨⟨_, _, rfl⟩, h1, h3, h4, { hd with val := h2, propsLt := ?_ }⟩
  intro q hq
  have := hd.propsLt q hq
  exact ⟨this.1, Nat.lt_of_lt_of_le this.2 h4.length_le⟩

theorem internBool_spec {s : Str} {d d' : Dom} {k : Nat} (hd : NamesOK d) (h : internBool s d = .ok (k, d')) :
    (∃ m r, d' = { d with boolMap := m, boolReg := r }) ∧ k ≠ 0 ∧ d'.boolReg[k]? = some s ∧
    d.boolReg <+: d'.boolReg ∧ NamesOK d' := by
  simp only [internBool, Out.bind_eq_ok] at h
  obtain ⟨r, hr, e⟩ := h
  cases e
  obtain ⟨h1, h2, h3, h4⟩ := hd.bool.insert_ok hr
  refine ⟨⟨_, _, rfl⟩, h1, h3, h4, { hd with bool := h2, boolsLt := ?_ }⟩
  intro q hq
  exact Nat.lt_of_lt_of_le (hd.boolsLt q hq) h4.length_le

/-- What an attribute operation leaves alone. -/
structure SameShape (d d' : Dom) : Prop where
  nodes : d'.nodes = d.nodes
  fc : d'.fc = d.fc
  pc : d'.pc = d.pc
  nn : d'.nn = d.nn
  tagReg : d'.tagReg = d.tagReg

theorem SameShape.refl (d : Dom) : SameShape d d := ⟨rfl, rfl, rfl, rfl, rfl⟩
theorem SameShape.trans {a b c : Dom} (h1 : SameShape a b) (h2 : SameShape b c) : SameShape a c :=
  ⟨h2.1.trans h1.1, h2.2.trans h1.2, h2.3.trans h1.3, h2.4.trans h1.4, h2.5.trans h1.5⟩

theorem pairs_grow {d d' : Dom} (hd : NamesOK d) (hp : d'.props = d.props) (hk : d.keyReg <+: d'.keyReg)
    (hv : d.valReg <+: d'.valReg) (n : Nat) : pairs d' n = pairs d n := by
  unfold pairs
  rw [hp]
  apply List.map_congr_left
  intro r hr
  have := hd.propsLt r (List.mem_of_mem_filter hr)
  rw [prefix_getD hk this.1, prefix_getD hv this.2]

theorem bools_grow {d d' : Dom} (hd : NamesOK d) (hp : d'.boolProps = d.boolProps)
    (hk : d.boolReg <+: d'.boolReg) (n : Nat) : bools d' n = bools d n := by
  unfold bools
  rw [hp]
  apply List.map_congr_left
  intro r hr
  have := hd.boolsLt r (List.mem_of_mem_filter hr)
  rw [prefix_getD hk this]

theorem addProperty_spec {n : Nat} {k v : Str} {d d' : Dom} (hd : NamesOK d)
    (h : addProperty n k v d = .ok d') :
    SameShape d d' ∧ NamesOK d' ∧ (∀ m, bools d' m = bools d m) ∧
    (∀ m, pairs d' m = if m = n then pairs d m ++ [(k, v)] else pairs d m) := by
  simp only [addProperty, Out.bind_eq_ok] at h
  obtain ⟨⟨k', d1⟩, h1, ⟨v', d2⟩, h2, h3⟩ := h
  cases h3
  obtain ⟨⟨m1, r1, e1⟩, kz, kr, kp, kn⟩ := internKey_spec hd h1
  obtain ⟨⟨m2, r2, e2⟩, vz, vr, vp, vn⟩ := internVal_spec kn h2
  have hkr : d2.keyReg = d1.keyReg := by rw [e2]
  have hvr : d1.valReg = d.valReg := by rw [e1]
  have hpr : d2.props = d.props := by rw [e2, e1]
  have hbr : d2.boolProps = d.boolProps := by rw [e2, e1]
  have hbg : d2.boolReg = d.boolReg := by rw [e2, e1]
  refine ⟨⟨?_, ?_, ?_, ?_, ?_⟩, ?_, ?_, ?_⟩
  · show d2.nodes = d.nodes; rw [e2, e1]
  · show d2.fc = d.fc; rw [e2, e1]
  · show d2.pc = d.pc; rw [e2, e1]
  · show d2.nn = d.nn; rw [e2, e1]
  · show d2.tagReg = d.tagReg; rw [e2, e1]
  · refine { vn with propsLt := ?_, propsNz := ?_ }
    · intro r hr
      rcases List.mem_append.mp hr with hr | hr
      · exact vn.propsLt r hr
      · simp at hr; subst hr
        exact ⟨by rw [hkr]; exact lt_of_some kr, lt_of_some vr⟩
    · intro r hr
      rcases List.mem_append.mp hr with hr | hr
      · exact vn.propsNz r hr
      · simp at hr; subst hr
        exact fun _ => ⟨kz, vz⟩
  · intro m
    unfold bools
    show List.map (fun r => d2.boolReg.getD r.2 []) (d2.boolProps.filter _) = _
    rw [hbr, hbg]
  · intro m
    have hg : pairs d2 m = pairs d m := pairs_grow hd hpr (by rw [hkr]; exact kp) (by rw [← hvr]; exact vp) m
    show List.map (fun (r : PropRow) => (d2.keyReg.getD r.key [], d2.valReg.getD r.value []))
      ((d2.props ++ [(⟨n, k', v'⟩ : PropRow)]).filter _) = _
    rw [List.filter_append, List.map_append]
    rw [show List.map (fun (r : PropRow) => (d2.keyReg.getD r.key [], d2.valReg.getD r.value []))
      (d2.props.filter (fun r => r.node == m)) = pairs d m from hg]
    by_cases hm : m = n
    · subst hm
      have : d2.keyReg.getD k' [] = k := getD_of_some (by rw [hkr]; exact kr)
      have : d2.valReg.getD v' [] = v := getD_of_some vr
      simp_all
    · have : ¬ n = m := fun e => hm e.symm
      simp [this, hm]

theorem addBoolProperty_spec {n : Nat} {s : Str} {d d' : Dom} (hd : NamesOK d)
    (h : addBoolProperty n s d = .ok d') :
    SameShape d d' ∧ NamesOK d' ∧ (∀ m, pairs d' m = pairs d m) ∧
    (∀ m, bools d' m = if m = n then bools d m ++ [s] else bools d m) := by
  simp only [addBoolProperty, Out.bind_eq_ok] at h
  obtain ⟨⟨k', d1⟩, h1, h3⟩ := h
  cases h3
  obtain ⟨⟨m1, r1, e1⟩, kz, kr, kp, kn⟩ := internBool_spec hd h1
  have hpr : d1.boolProps = d.boolProps := by rw [e1]
  refine ⟨⟨?_, ?_, ?_, ?_, ?_⟩, ?_, ?_, ?_⟩
  · show d1.nodes = d.nodes; rw [e1]
  · show d1.fc = d.fc; rw [e1]
  · show d1.pc = d.pc; rw [e1]
  · show d1.nn = d.nn; rw [e1]
  · show d1.tagReg = d.tagReg; rw [e1]
  · refine { kn with boolsLt := ?_, boolsNz := ?_ }
    · intro r hr
      rcases List.mem_append.mp hr with hr | hr
      · exact kn.boolsLt r hr
      · simp at hr; subst hr
        exact lt_of_some kr
    · intro r hr
      rcases List.mem_append.mp hr with hr | hr
      · exact kn.boolsNz r hr
      · simp at hr; subst hr
        exact fun _ => kz
  · intro m
    unfold pairs
    show List.map (fun r => (d1.keyReg.getD r.key [], d1.valReg.getD r.value [])) (d1.props.filter _) = _
    rw [e1]
  · intro m
    have hg : bools d1 m = bools d m := bools_grow hd hpr kp m
    show List.map (fun (r : Row) => d1.boolReg.getD r.2 []) ((d1.boolProps ++ [(n, k')]).filter _) = _
    rw [List.filter_append, List.map_append]
    rw [show List.map (fun r => d1.boolReg.getD r.2 [])
      (d1.boolProps.filter (fun r => r.1 == m)) = bools d m from hg]
    by_cases hm : m = n
    · subst hm
      have : d1.boolReg.getD k' [] = s := getD_of_some kr
      simp_all
    · have : ¬ n = m := fun e => hm e.symm
      simp [this, hm]

/-- The boolean names in a list of attributes. -/
def attrBools : List Attr → List Str
  | [] => []
  | .bool b :: l => b :: attrBools l
  | .pair _ _ :: l => attrBools l

/-- The pairs in a list of attributes. -/
def attrPairs : List Attr → List (Str × Str)
  | [] => []
  | .bool _ :: l => attrPairs l
  | .pair k v :: l => (k, v) :: attrPairs l

theorem buildAttrs_spec {n : Nat} {as : List Attr} {d d' : Dom} (hd : NamesOK d)
    (h : buildAttrs n as d = .ok d') :
    SameShape d d' ∧ NamesOK d' ∧
    (∀ m, pairs d' m = if m = n then pairs d m ++ attrPairs as else pairs d m) ∧
    (∀ m, bools d' m = if m = n then bools d m ++ attrBools as else bools d m) := by
  induction as generalizing d with
  | nil => cases h; exact ⟨SameShape.refl _, hd, by simp [attrPairs], by simp [attrBools]⟩
  | cons a as ih =>
    simp only [buildAttrs, Out.bind_eq_ok] at h
    obtain ⟨d1, h1, h2⟩ := h
    cases a with
    | bool b =>
      obtain ⟨a1, a2, a3, a4⟩ := addBoolProperty_spec hd h1
      obtain ⟨b1, b2, b3, b4⟩ := ih a2 h2
      refine ⟨a1.trans b1, b2, ?_, ?_⟩
      · intro m; rw [b3, a3, attrPairs]
      · intro m; rw [b4, a4, attrBools]; split <;> simp
    | pair k v =>
      obtain ⟨a1, a2, a3, a4⟩ := addProperty_spec hd h1
      obtain ⟨b1, b2, b3, b4⟩ := ih a2 h2
      refine ⟨a1.trans b1, b2, ?_, ?_⟩
      · intro m; rw [b3, a4, attrPairs]; split <;> simp
      · intro m; rw [b4, a3, attrBools]

/-- What creating a node does to everything that was there. -/
structure Grew (d d' : Dom) (nd : Node) : Prop where
  nodes : d'.nodes = d.nodes ++ [nd]
  fc : d'.fc = d.fc
  pc : d'.pc = d.pc
  nn : d'.nn = d.nn
  tagReg : d.tagReg <+: d'.tagReg
  room : d.nodes.length ≤ 65534
  names : NamesOK d'
  pairs : ∀ m, m ≠ d.nodes.length → pairs d' m = pairs d m
  bools : ∀ m, m ≠ d.nodes.length → bools d' m = bools d m

theorem setTag_spec {tag : Str} {n : Nat} {can : Bool} {d d' : Dom} (hd : NamesOK d)
    (h : setTag tag n can d = .ok d') :
    ∃ t nd, d.nodes[n]? = some nd ∧ t ≠ 0 ∧ d'.nodes = d.nodes.set n ⟨nd.type, .tag t⟩ ∧
      (d'.tagReg[t]?).map (·.1) = some tag ∧ d'.fc = d.fc ∧ d'.pc = d.pc ∧ d'.nn = d.nn ∧
      d.tagReg <+: d'.tagReg ∧ NamesOK d' ∧ (∀ m, pairs d' m = pairs d m) ∧ (∀ m, bools d' m = bools d m) := by
  simp only [setTag, Out.bind_eq_ok] at h
  obtain ⟨r, hr, nd, hn, e⟩ := h
  cases e
  have hn' : d.nodes[n]? = some nd := by
    unfold Dom.node at hn
    split at hn
    · rename_i h1; cases hn; exact h1
    · cases hn
  obtain ⟨h1, h2, h3, h4⟩ := hd.tag.insert_ok hr
  have hmap : (if r.wasInserted then d.tagReg ++ [(tag, can)] else d.tagReg).map (·.1) =
      (if r.wasInserted then d.tagReg.map (·.1) ++ [tag] else d.tagReg.map (·.1)) := by
    split <;> simp
  refine ⟨r.entryIndex, nd, hn', h1, rfl, ?_, rfl, rfl, rfl, ?_, ?_, fun _ => rfl, fun _ => rfl⟩
  · show Option.map (fun x => x.1) ((if r.wasInserted then d.tagReg ++ [(tag, can)] else d.tagReg)[r.entryIndex]?)
      = some tag
    rw [← List.getElem?_map, hmap]; exact h3
  · show d.tagReg <+: (if r.wasInserted then d.tagReg ++ [(tag, can)] else d.tagReg)
    split
    · exact List.prefix_append _ _
    · exact List.prefix_rfl
  · have ht : MapOK r.map ((if r.wasInserted then d.tagReg ++ [(tag, can)] else d.tagReg).map (·.1)) := by
      rw [hmap]; exact h2
    refine ⟨ht, hd.bool, hd.key, hd.val, hd.propsLt, hd.propsNz, hd.boolsLt, hd.boolsNz, ?_⟩
    obtain ⟨p, hp⟩ := hd.tag0
    refine ⟨p, ?_⟩
    show (if r.wasInserted then d.tagReg ++ [(tag, can)] else d.tagReg)[0]? = _
    split
    · rw [List.getElem?_append_left (lt_of_some hp)]; exact hp
    · exact hp

theorem createNode_spec {ty : NodeType} {d d' : Dom} {id : Nat} (hd : NamesOK d)
    (h : createNode ty d = .ok (id, d')) :
    id = d.nodes.length ∧ ∃ nd, nd.type = ty ∧ Grew d d' nd ∧ pairs d' id = pairs d id ∧ bools d' id = bools d id ∧
      d'.tagReg = d.tagReg := by
  obtain ⟨e1, e2, e3⟩ := createNode_eq h
  subst e3
  refine ⟨e1, _, rfl, ⟨rfl, rfl, rfl, rfl, List.prefix_rfl, e2, { hd with }, fun _ _ => rfl, fun _ _ => rfl⟩, rfl, rfl, rfl⟩

theorem buildElem_spec {tag : Str} {can : Bool} {as : List Attr} {d d' : Dom} {id : Nat} (hd : NamesOK d)
    (h : buildElem tag can as d = .ok (id, d')) :
    id = d.nodes.length ∧ ∃ t, t ≠ 0 ∧ Grew d d' ⟨.document, .tag t⟩ ∧
      (d'.tagReg[t]?).map (·.1) = some tag ∧
      pairs d' id = pairs d id ++ attrPairs as ∧ bools d' id = bools d id ++ attrBools as := by
  simp only [buildElem, Out.bind_eq_ok] at h
  obtain ⟨⟨id', d1⟩, h1, d2, h2, d3, h3, h4⟩ := h
  cases h4
  obtain ⟨e1, nd, ety, g1, p1, b1, t1⟩ := createNode_spec hd h1
  obtain ⟨a1, a2, a3, a4⟩ := buildAttrs_spec g1.names h2
  obtain ⟨t, nd', s1, s2, s3, s4, s5, s6, s7, s8, s9, s10, s11⟩ := setTag_spec a2 h3
  subst e1
  have hnd : nd' = nd := by
    rw [a1.nodes, g1.nodes] at s1
    simpa using s1.symm
  subst hnd
  refine ⟨rfl, t, s2, ⟨?_, ?_, ?_, ?_, ?_, g1.room, s9, ?_, ?_⟩, s4, ?_, ?_⟩
  · rw [s3, a1.nodes, g1.nodes, ety]; simp
  · rw [s5, a1.fc, g1.fc]
  · rw [s6, a1.pc, g1.pc]
  · rw [s7, a1.nn, g1.nn]
  · rw [a1.tagReg] at s8
    exact g1.tagReg.trans s8
  · intro m hm; rw [s10, a3, if_neg hm, g1.pairs m hm]
  · intro m hm; rw [s11, a4, if_neg hm, g1.bools m hm]
  · rw [s10, a3, if_pos rfl, p1]
  · rw [s11, a4, if_pos rfl, b1]

theorem parseTextElement_spec {raw : Str} {d d' : Dom} {id : Nat} (hd : NamesOK d)
    (h : parseTextElement raw d = .ok (id, d')) :
    id = d.nodes.length ∧ Grew d d' ⟨.text, .text raw⟩ ∧ pairs d' id = pairs d id ∧ bools d' id = bools d id ∧
      d'.tagReg = d.tagReg := by
  simp only [parseTextElement, Out.bind_eq_ok] at h
  obtain ⟨⟨id', d1⟩, h1, nd, h2, h3⟩ := h
  cases h3
  obtain ⟨e1, e2, e3⟩ := createNode_eq h1
  subst e3 e1
  have : nd = ⟨.text, .text []⟩ := by
    simp [Dom.node] at h2; exact h2.symm
  subst this
  refine ⟨rfl, ⟨?_, rfl, rfl, rfl, List.prefix_rfl, e2, { hd with }, fun _ _ => rfl, fun _ _ => rfl⟩, rfl, rfl, rfl⟩
  simp [Dom.setNode]

end Flo
