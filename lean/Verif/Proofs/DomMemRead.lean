import Verif.Proofs.DomMemCreate
import Verif.Spec.DomMem
/-!
# Reading the represented DOM
-/
namespace Flo
open Spec

theorem sum_mul (c : Nat) (f : Nat → Nat) : ∀ l : List Nat, (l.map fun i => c * f i).sum = c * (l.map f).sum
  | [] => rfl
  | x :: l => by simp only [List.map_cons, List.sum_cons]; rw [sum_mul c f l, Nat.mul_add]

theorem number_eq (mem : Int → UInt8) : ∀ (n : Nat) (p : Int), number mem p n = readLE mem p n
  | 0, p => rfl
  | n + 1, p => by
    have ih := number_eq mem n (p + 1)
    unfold number at ih ⊢
    simp only [readLE]
    rw [← ih, List.range_succ_eq_map, List.map_cons, List.sum_cons, List.map_map, ← sum_mul]
    congr 1
    · simp
    · congr 1
      refine List.map_congr_left fun i _ => ?_
      simp only [Function.comp]
      rw [show p + ((i + 1 : Nat) : Int) = p + 1 + (i : Int) by push_cast; omega, pow_succ]
      ring

theorem bytesFrom_eq (mem : Int → UInt8) (r : MStr) : bytesFrom mem r.ptr r.len = r.read mem := rfl

theorem stringAt_eq (mem : Int → UInt8) (p : Int) : stringAt mem p = (loadStr mem p).read mem := by
  unfold stringAt
  rw [number_eq, number_eq]; rfl

theorem typeNumber_eq (t : NodeType) : typeNumber t = t.code := by cases t <;> rfl

theorem ArrRep.addr {α : Type} {own : Int → Owner} {o : Owner} {k : Kind} {E : ElemAt α} {lo : Int} {a : Arena} {s : Arr} {l : List α}
    (h : ArrRep own o k E lo a s l) {i : Nat} {x : α} (hx : l[i]? = some x) : E a.mem own (entryAddr s k.size i) i x := by
  unfold entryAddr
  have hi := (List.getElem?_eq_some_iff.1 hx).1
  cases hb : s.buf with
  | none =>
    have := h.ok.none hb; have := h.ok.lenCap; have := h.len
    omega
  | some b => exact h.at_ b hb i x hx

theorem ArrRep.list {α : Type} {own : Int → Owner} {o : Owner} {k : Kind} {E : ElemAt α} {lo : Int} {a : Arena} {s : Arr} {l : List α}
    (h : ArrRep own o k E lo a s l) (f : Int → α) (hf : ∀ p i x, E a.mem own p i x → f p = x) : (entries s k.size).map f = l := by
  have hl : s.len.toNat = l.length := by have := h.len; omega
  unfold entries
  rw [hl]
  refine List.ext_getElem? fun i => ?_
  rw [List.getElem?_map, List.getElem?_map]
  by_cases hi : i < l.length
  · rw [List.getElem?_range hi]
    simp only [Option.map_some]
    rw [hf _ _ _ (h.addr (List.getElem?_eq_getElem hi)), List.getElem?_eq_getElem hi]
  · rw [List.getElem?_eq_none (by simp; omega), List.getElem?_eq_none (by omega)]
    rfl

theorem readLE_first {mem : Int → UInt8} {p : Int} {n v : Nat} (h : readLE mem p (n + 1) = v) (hv : v < 256) : (mem p).toNat = v := by
  simp only [readLE] at h
  omega

theorem trieLoop_find {mem : Int → UInt8} {own : Int → Owner} {j : Nat} {key : Str} : ∀ (t : ATrie) (f d : Nat) (p : Int)
    (hash : UInt64) (link : MLink), TrieAt mem own j d p t → t.run < f →
    ∃ r, memTrieLoop mem key f hash p link = .ok r ∧ (match r with | .inl v => v | .inr _ => 0) = t.find autoSlot key hash := by
  intro t
  induction t with
  | nil =>
    intro f d p hash link h hf
    obtain ⟨f, rfl⟩ : ∃ g, f = g + 1 := ⟨f - 1, by omega⟩
    simp only [memTrieLoop]
    have h : p = 0 := h
    rw [if_pos h]
    exact ⟨_, rfl, rfl⟩
  | node k w c0 c1 c2 c3 ih _ _ _ =>
    intro f d p hash link h hf
    obtain ⟨h1, h2, h3, h4, h5, h6⟩ := h
    obtain ⟨f, rfl⟩ : ∃ g, f = g + 1 := ⟨f - 1, by omega⟩
    simp only [memTrieLoop, ATrie.find, autoSlot_zero]
    rw [if_neg (by omega), h4.read]
    by_cases he : strEq key k = true
    · rw [if_pos he, if_pos he]
      exact ⟨_, rfl, h5⟩
    · rw [if_neg he, if_neg he]
      rw [autoOffset_eq_zero]
      simp only [ATrie.run] at hf
      rw [show p + ((0 : Nat) : Int) = p by omega]
      exact ih f _ _ _ _ h6 (by omega)

theorem MapRep.find {own : Int → Owner} {j : Nat} {mem : Int → UInt8} {m : MMap} {am : AutoMap} (h : MapRep own j mem m am) (k : MStr) :
    memLookup k m mem = .ok (am.contains (bytesFrom mem k.ptr k.len)) := by
  unfold memLookup
  have := h.run
  obtain ⟨r, h1, h2⟩ := trieLoop_find (key := k.read mem) am.root (m.identity + 1) 0 m.root (hashDjb2 (k.read mem)) .root h.trie
    (by rw [h.ident]; omega)
  dsimp only
  rw [h1, Out.bind_ok]
  unfold AutoMap.contains
  rw [bytesFrom_eq, ← h2]
  cases r <;> rfl

theorem Rep.inMemory {V : MEnv} {own : Int → Owner} {x : Int} {M : MDom} {a : Arena} {d : Dom} (h : Rep V own x M a d) :
    InMemory a.mem M d where
  count := h.nodes.len
  nodes := by
    intro i nd hnd
    have := h.nodes.addr hnd
    obtain ⟨h1, h2, h3⟩ := this
    refine ⟨?_, ?_, ?_, ?_⟩
    · rw [number_eq]; exact h1
    · rw [number_eq, typeNumber_eq]; exact h2
    · intro s hs
      rw [hs] at h3
      rw [stringAt_eq]; exact StrIn.read h3
    · intro t ht
      rw [ht] at h3
      rw [number_eq]; exact h3
  firstChilds := h.fc.list _ fun p i r hr => by unfold pairAt; rw [number_eq, number_eq, hr.1, hr.2]
  childs := h.pc.list _ fun p i r hr => by unfold pairAt; rw [number_eq, number_eq, hr.1, hr.2]
  nexts := h.nn.list _ fun p i r hr => by unfold pairAt; rw [number_eq, number_eq, hr.1, hr.2]
  boolProps := h.boolProps.list _ fun p i r hr => by unfold pairAt; rw [number_eq, number_eq, hr.1, hr.2]
  props := h.props.list _ fun p i r hr => by unfold tripleAt; rw [number_eq, number_eq, number_eq, hr.1, hr.2.1, hr.2.2]
  tagNames := h.tagReg.list _ fun p i r hr => by
    unfold tagAt
    rw [stringAt_eq, StrIn.read hr.1]
    obtain ⟨t, b⟩ := r
    have h1 := readLE_first (n := 7) hr.2 (by split <;> omega)
    refine Prod.ext rfl ?_
    dsimp only at h1 ⊢
    cases b
    · have : a.mem (p + 16) = 0 := UInt8.toNat_inj.1 h1
      rw [this]; rfl
    · have : a.mem (p + 16) = 1 := UInt8.toNat_inj.1 h1
      rw [this]; rfl
  boolNames := h.boolReg.list _ fun p i r hr => by rw [stringAt_eq]; exact StrIn.read hr
  keyNames := h.keyReg.list _ fun p i r hr => by rw [stringAt_eq]; exact StrIn.read hr
  valNames := h.valReg.list _ fun p i r hr => by rw [stringAt_eq]; exact StrIn.read hr
  findTag := h.tagMap.find
  findBool := h.boolMap.find
  findKey := h.keyMap.find
  findVal := h.valMap.find

/-- Writing to the free part of the arena does not change the DOM. -/
theorem Rep.rewrite {V : MEnv} {own : Int → Owner} {x : Int} {M : MDom} {a : Arena} {d : Dom} (h : Rep V own x M a d) {mem' : Int → UInt8}
    (hm : SameButFree a a.mem mem') : Rep V own x M { a with mem := mem' } d := by
  have hA : Around (fun _ => False) own a own { a with mem := mem' } :=
    ⟨le_refl _, h.top, rfl, fun y hy _ => ⟨rfl, hm y (by
      by_contra hcon
      exact hy (h.free y (by omega) (by omega)))⟩, fun y _ _ hy => hy⟩
  exact h.other hA (fun _ hf => False.elim hf) (le_refl _)

theorem Spec.SourceAt.tok {a : Arena} {src : MStr} {s : Str} {K : Int → Prop} (h : SourceAt a src s)
    (hK : ∀ y, src.ptr ≤ y → y < src.ptr + src.len → K y) : Tok (a.env K) src s := by
  have hl : src.len = s.length := by have := congrArg List.length h.bytes; simpa [bytesFrom] using this
  refine ⟨hl, h.pos, h.top, fun i c hc => ?_⟩
  have hi := lt_of_getElem? hc
  refine ⟨?_, ?_⟩
  · show K _ ∧ (_ < a.beg ∨ a.stop ≤ _)
    have := h.apart
    exact ⟨hK _ (by omega) (by omega), by omega⟩
  · have : (bytesFrom a.mem src.ptr src.len)[i]? = some c := by rw [h.bytes]; exact hc
    unfold bytesFrom at this
    rw [List.getElem?_map, List.getElem?_range (by omega)] at this
    simpa [Arena.env] using this

end Flo
