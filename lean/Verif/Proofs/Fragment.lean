import Verif.Proofs.Forest
import Verif.Proofs.Kids
import Verif.Spec.Fragment
/-!
# Inserting parsed fragments
-/
namespace Flo
open Spec

theorem tag_of_text {d : Dom} {n : Nat} {t : Str} (h : textOf d n = some t) : tagOf d n = none := by
  rw [textOf_eq] at h
  unfold tagOf
  rw [h]

mutual
theorem Rep.unique {d : Dom} : ∀ (t t' : Tree) (n : Nat), Rep d t n → Rep d t' n → t = t'
  | .text a, .text b, n, h, h' => by
    simp only [Rep] at h h'
    have := h.1.symm.trans h'.1
    simpa using this
  | .text a, .elem tag ps bs ts, n, h, h' => by
    simp only [Rep] at h h'
    have := tag_of_text h.1
    rw [this] at h'; exact absurd h'.1 (by simp)
  | .elem tag ps bs ts, .text a, n, h, h' => by
    simp only [Rep] at h h'
    have := tag_of_text h'.1
    rw [this] at h; exact absurd h.1 (by simp)
  | .elem tag ps bs ts, .elem tag' ps' bs' ts', n, h, h' => by
    simp only [Rep] at h h'
    obtain ⟨h1, h2, h3, h4⟩ := h
    obtain ⟨g1, g2, g3, g4⟩ := h'
    have e1 := h1.symm.trans g1
    simp at e1
    have e2 := h2.symm.trans g2
    have e3 := h3.symm.trans g3
    have e4 := RepL.unique ts ts' (kids d n) h4 g4
    rw [e1, e2, e3, e4]
theorem RepL.unique {d : Dom} : ∀ (ts ts' : List Tree) (ns : List Nat), RepL d ts ns → RepL d ts' ns → ts = ts'
  | [], [], _, _, _ => rfl
  | [], t :: ts, ns, h, h' => by cases ns <;> simp [RepL] at h h'
  | t :: ts, [], ns, h, h' => by cases ns <;> simp [RepL] at h h'
  | t :: ts, t' :: ts', ns, h, h' => by
    cases ns with
    | nil => simp [RepL] at h
    | cons n ns =>
      simp only [RepL] at h h'
      rw [Rep.unique t t' n h.1 h'.1, RepL.unique ts ts' ns h.2 h'.2]
end

mutual
theorem RepC.transfer {d d' : Dom} {ch : Nat → List Nat} {lo hi : Nat} {S : Nat → Prop}
    (h : ∀ q, S q → SameAt d d' ch (kids d') q) (hc : ∀ q c, S q → c ∈ ch q → S c) :
    ∀ (t : Tree) (n : Nat), S n → RepC d ch lo hi t n → Rep d' t n
  | .text raw, n, hn, hr => by
    simp only [RepC, Rep] at hr ⊢
    exact ⟨(h n hn).text _ hr.2.2.1, by rw [(h n hn).ch, hr.2.2.2]⟩
  | .elem tag ps bs ts, n, hn, hr => by
    simp only [RepC, Rep] at hr ⊢
    obtain ⟨h1, h2, h3, h4, h5, h6⟩ := hr
    have hs := h n hn
    refine ⟨hs.tag _ h3, by rw [hs.pairs, h4], by rw [hs.bools, h5], ?_⟩
    rw [hs.ch]
    exact RepCL.transfer h hc ts _ (fun c hcm => hc n c hn hcm) h6
theorem RepCL.transfer {d d' : Dom} {ch : Nat → List Nat} {lo hi : Nat} {S : Nat → Prop}
    (h : ∀ q, S q → SameAt d d' ch (kids d') q) (hc : ∀ q c, S q → c ∈ ch q → S c) :
    ∀ (ts : List Tree) (ns : List Nat), (∀ n ∈ ns, S n) → RepCL d ch lo hi ts ns → RepL d' ts ns
  | [], [], _, _ => trivial
  | [], _ :: _, _, hr => by simp [RepCL] at hr
  | _ :: _, [], _, hr => by simp [RepCL] at hr
  | t :: ts, n :: ns, hn, hr => by
    simp only [RepCL, RepL] at hr ⊢
    exact ⟨RepC.transfer h hc t n (hn n (by simp)) hr.1,
      RepCL.transfer h hc ts ns (fun m hm => hn m (by simp [hm])) hr.2⟩
end

theorem RepCL.split_last {d : Dom} {ch : Nat → List Nat} {lo hi : Nat} : ∀ {ts : List Tree} {ns : List Nat} {n : Nat},
    RepCL d ch lo hi ts (ns ++ [n]) → ∃ ts' t, ts = ts' ++ [t] ∧ RepCL d ch lo hi ts' ns ∧ RepC d ch lo hi t n := by
  intro ts
  induction ts with
  | nil => intro ns n h; cases ns <;> simp [RepCL] at h
  | cons t ts ih =>
    intro ns n h
    cases ns with
    | nil =>
      simp only [List.nil_append, RepCL] at h
      cases ts with
      | cons => simp [RepCL] at h
      | nil => exact ⟨[], t, rfl, trivial, h.1⟩
    | cons m ns =>
      simp only [List.cons_append, RepCL] at h
      obtain ⟨ts', t', e, h1, h2⟩ := ih h.2
      exact ⟨t :: ts', t', by rw [e]; rfl, by simp only [RepCL]; exact ⟨h.1, h1⟩, h2⟩

theorem RepC.textOf {d : Dom} {ch : Nat → List Nat} {lo hi : Nat} {t : Tree} {n : Nat} (h : RepC d ch lo hi t n)
    {s : Str} (hs : Spec.textOf d n = some s) : t = .text s := by
  cases t with
  | text raw =>
    simp only [RepC] at h
    have := h.2.2.1.symm.trans hs
    simp at this; rw [this]
  | elem tag ps bs ts =>
    simp only [RepC] at h
    rw [tag_of_text hs] at h; exact absurd h.2.2.1 (by simp)

theorem RepC.text_some {d : Dom} {ch : Nat → List Nat} {lo hi : Nat} {s : Str} {n : Nat}
    (h : RepC d ch lo hi (.text s) n) : Spec.textOf d n = some s := by
  simp only [RepC] at h; exact h.2.2.1

section
variable {d : Dom} {ch : Nat → List Nat}

/-- A successful fragment parse: the invariant, and the trees the floating nodes represent. -/
theorem parseExtra_forest {junk : Nat → Out Bool} {s : Str} {evs : List Ev} (h : DomI d ch) (h0 : ch 0 = [])
    (hl : lex (fragBase junk s) s = .ok evs) {d1 : Dom} (hr : parseExtra junk s d = .ok ⟨true, d1⟩) :
    ∃ c1, Parsed d ch d1 c1 ∧ (∀ q, d.nodes.length ≤ q → typeOf d1 q = some .text → c1 q = []) ∧
      RepCL d1 c1 0 d1.nodes.length (forest evs) (c1 0) := by
  have hupd : upd ch 0 [] = ch := by rw [← h0]; exact upd_self ch 0
  have hb := BInv.initExtra h.linked h.names
  rw [hupd] at hb
  rw [parseExtra_lex hl] at hr
  have h2 := h.linked.two
  have hz : ZRep [0] ⟨d, [], 0⟩ ch ⟨[], []⟩ := by
    simp only [ZRep, List.map_nil, List.nil_append, ZAt, RepCL]
    exact ⟨by omega, [], by rw [h0]; rfl, trivial⟩
  obtain ⟨b', c1, e1, hb', rep⟩ := hz.run hb h.fresh (lex_evOK hl) hr
  subst e1
  have hd := BInv.domI h hb'.linked hb'.names hb'.old hb'.reg hb'.mode hb'.frame hb'.new hb'.order hb'.pairs
    hb'.bools hb'.cap
  refine ⟨c1, ⟨hd.1, hd.2, hb'.frame, hb'.order, hb'.le, hb'.old⟩, fun p hp ht => ?_, rep⟩
  by_contra hne
  obtain ⟨name, hname, _⟩ := hb'.inner p hp hne
  obtain ⟨nd, h1, h2⟩ := typeOf_some ht
  unfold tagOf at hname
  rw [h1] at hname
  cases nd; simp at h2; subst h2; simp at hname

theorem lex_frag_any {junk : Nat → Out Bool} {s : Str} {evs : List Ev} {w : Why}
    (h : lex (fragBase (fun _ => .ub w) s) s = .ok evs) : lex (fragBase junk s) s = .ok evs := by
  refine lexAll_base ?_ h
  intro i b hb
  unfold fragBase at hb ⊢
  split at hb
  · cases hb
  · rename_i hc; rw [if_neg hc]; exact hb

/-- The parse of `html` into `d` builds the trees `F`, of which there is at least one. -/
def FParse (junk : Nat → Out Bool) (html : Str) (d : Dom) (ch : Nat → List Nat) (F : List Tree) : Prop :=
    ∃ r c1 ids, parseExtra junk html d = .ok r ∧ r.ok = true ∧ Parsed d ch r.dom c1 ∧
      (∀ q, d.nodes.length ≤ q → typeOf r.dom q = some .text → c1 q = []) ∧
      c1 0 = d.nodes.length :: ids ∧ RepCL r.dom c1 0 r.dom.nodes.length F (c1 0)

theorem FParse.nonempty {junk : Nat → Out Bool} {html : Str} {F : List Tree} (hf : FParse junk html d ch F) : F ≠ [] := by
  obtain ⟨_, c1, ids, _, _, _, _, e, rep⟩ := hf
  rintro rfl
  rw [e] at rep
  simp [RepCL] at rep

theorem fparse_of_lex {junk : Nat → Out Bool} {html : Str} {evs : List Ev} (h : DomI d ch) (h0 : ch 0 = [])
    (hl : lex (fragBase junk html) html = .ok evs) {d1 : Dom} (hr : parseExtra junk html d = .ok ⟨true, d1⟩)
    (hne : forest evs ≠ []) : FParse junk html d ch (forest evs) := by
  obtain ⟨c1, P, hleaf, rep⟩ := parseExtra_forest h h0 hl hr
  have hne0 : c1 0 ≠ [] := by
    intro e
    rw [e] at rep
    cases hf : forest evs with
    | nil => exact hne hf
    | cons => rw [hf] at rep; simp [RepCL] at rep
  have hlt : d.nodes.length < d1.nodes.length := by
    obtain ⟨a, l, e⟩ := List.exists_cons_of_ne_nil hne0
    have := P.mem0 (c := a) (by rw [e]; simp)
    omega
  obtain ⟨ids, hids⟩ := P.head hlt
  exact ⟨⟨true, d1⟩, c1, ids, hr, rfl, P, hleaf, hids, rep⟩

/-- What `Fragment` gives: for any oracle, the parse into `d` builds the trees `F`. -/
theorem Spec.Fragment.parse {html : Str} {F : List Tree} (hf : Fragment html d F) (h : DomI d ch) (h0 : ch 0 = [])
    (junk : Nat → Out Bool) : FParse junk html d ch F := by
  obtain ⟨⟨dh, hdh, hrep⟩, ⟨d1, hd1⟩, hne⟩ := hf
  obtain ⟨evs, hl⟩ := lex_of_parseExtra hd1
  have hl' := lex_frag_any (junk := junk) hl
  have hr : parseExtra junk html d = .ok ⟨true, d1⟩ := by
    rw [parseExtra_lex hl', ← parseExtra_lex hl]; exact hd1
  obtain ⟨evs', hl2, rep2⟩ := createDom_lex hdh
  have : evs' = evs := by
    have := lex_frag_root hl
    rw [this] at hl2; cases hl2; rfl
  subst this
  have hF := RepL.unique _ _ _ rep2 hrep
  rw [← hF]
  exact fparse_of_lex h h0 hl' hr (by rw [hF]; exact hne)

theorem Spec.SameNode.sameAt {d1 d' : Dom} {c c' : Nat → List Nat} {q : Nat} (h : SameNode d1 d' q) (hc : c' q = c q) :
    SameAt d1 d' c c' q :=
  ⟨hc, fun t ht => by rw [h.text]; exact ht, fun t ht => by rw [h.tag]; exact ht, h.pairs, h.bools⟩

variable {d1 : Dom} {c1 : Nat → List Nat}

/-- Child lists and contents of old nodes other than `k` after an insertion below `p`. -/
theorem Parsed.oldKids (P : Parsed d ch d1 c1) (h0 : ch 0 = []) {p q : Nat} (L : List Nat) (hq : q < d.nodes.length)
    (hqp : q ≠ p) : upd (upd c1 0 []) p L q = ch q := by
  rw [upd_ne hqp]
  by_cases h : q = 0
  · subst h; rw [upd_same, h0]
  · rw [upd_ne h]; exact P.frame q h hq

/-- A set of new nodes that is untouched and closed under children keeps its trees. -/
theorem Parsed.keep (P : Parsed d ch d1 c1) {d' : Dom} {p : Nat} {L : List Nat}
    (hp : p < d.nodes.length) (hk : kids d' = upd (upd c1 0 []) p L) {G : Nat → Prop} (hG : ∀ g, G g → g ∈ c1 0)
    (hs : ∀ m, d.nodes.length ≤ m → ¬G m → SameNode d1 d' m) {ts : List Tree} {ns : List Nat}
    (hns : ∀ n ∈ ns, n ∈ c1 0 ∧ ¬G n) (hr : RepCL d1 c1 0 d1.nodes.length ts ns) : RepL d' ts ns := by
  refine RepCL.transfer (S := fun q => d.nodes.length ≤ q ∧ ¬G q) ?_ ?_ ts ns
    (fun n hn => ⟨(P.mem0 (hns n hn).1).1, (hns n hn).2⟩) hr
  · rintro q ⟨h1, h3⟩
    refine (hs q h1 h3).sameAt ?_
    rw [hk, upd_ne (by omega), upd_ne (by omega)]
  · rintro q c ⟨h1, h3⟩ hc
    have := P.inv.linked.range q c hc
    refine ⟨by omega, fun hg => ?_⟩
    have := P.inv.linked.uniq q 0 c hc (hG c hg)
    omega

theorem RepCL.length {lo hi : Nat} : ∀ {ts : List Tree} {ns : List Nat}, RepCL d ch lo hi ts ns → ns.length = ts.length
  | [], [], _ => rfl
  | [], _ :: _, h => by simp [RepCL] at h
  | _ :: _, [], h => by simp [RepCL] at h
  | _ :: _, _ :: _, h => by
    simp only [RepCL] at h
    rw [List.length_cons, List.length_cons, RepCL.length h.2]

/-- Where the inserted nodes `new` come from: the nodes of the trees `F`, built in document order, of which the first or the last
may have been merged into a text. -/
def FromParse (d : Dom) (ch : Nat → List Nat) (F F1 F2 : List Tree) (new : List Nat) (d' : Dom) : Prop :=
  ∃ d1 c1, Parsed d ch d1 c1 ∧ RepCL d1 c1 0 d1.nodes.length F (c1 0) ∧ (∀ q, d.nodes.length ≤ q → kids d' q = c1 q) ∧
    d'.nodes.length = d1.nodes.length ∧ new = ((c1 0).drop (F.length - F1.length)).take F2.length

/-- How `appendHTMLFromString` inserts a fragment. -/
theorem appendHTML_num {html : Str} {F : List Tree} (h : DomI d ch) (h0 : ch 0 = []) {junk : Nat → Out Bool} (hf : FParse junk html d ch F)
    {p : Nat} (hp : p ≠ 0) (hlt : p < d.nodes.length) :
    ∃ id d' F1 new, appendHTML junk p html d = .ok (id, d') ∧ MergeFirst d d' ((ch p).getLastD 0) F F1 ∧
      kids d' p = ch p ++ new ∧ RepL d' F1 new ∧ (∀ n ∈ new, d.nodes.length ≤ n) ∧
      id = new.headD ((ch p).getLastD 0) ∧
      (∀ q, q < d.nodes.length → q ≠ p → kids d' q = ch q) ∧
      (∀ m, m < d.nodes.length → m ≠ (ch p).getLastD 0 → SameNode d d' m) ∧ FromParse d ch F F1 F1 new d' := by
  have hne := hf.nonempty
  obtain ⟨r, c1, ids, hr, ho, P, hleaf, hF, rep⟩ := hf
  have hcp : c1 p = ch p := P.at hp hlt
  have hklt : (ch p).getLastD 0 < d.nodes.length := by
    have := h.linked.two
    rcases List.eq_nil_or_concat' (ch p) with e | ⟨l, k, e⟩
    · rw [e]; simp; omega
    · have := h.linked.range p k (by rw [e]; simp)
      rw [e]; simp; omega
  have h2 := h.linked.two
  have rep0 := rep
  rw [hF] at rep
  obtain ⟨t, F', rfl⟩ : ∃ t F', F = t :: F' := List.exists_cons_of_ne_nil hne
  simp only [RepCL] at rep
  have hnd := P.inv.linked.nodup 0
  rw [hF, List.nodup_cons] at hnd
  rcases appendHTML_ok hr ho P hleaf hF hp hlt with ⟨tk, tn, d', h1, h3, e, m⟩ | ⟨h1, d', e, m⟩
  · rw [hcp] at h1 e m
    have hk := m.inv.kidsFun (upd_zero_nil hp _)
    have ht := rep.1.textOf h3
    refine ⟨_, d', F', ids, e, Or.inl ⟨tk, tn, ?_, by rw [ht], m.text, ?_, ?_⟩, by rw [hk, upd_same], ?_, ?_, rfl,
      ?_, ?_, ⟨r.dom, c1, P, rep0, ?_, m.len, ?_⟩⟩
    · rw [← P.sib hklt]; exact h1
    · rw [m.attrs.1, (P.old _ hklt).pairs]
    · rw [m.attrs.2, (P.old _ hklt).bools]
    · refine P.keep hlt hk (G := fun g => g = d.nodes.length) (by rintro g rfl; rw [hF]; simp)
        (fun q hq hg => m.others q (by omega) hg) ?_ rep.2
      intro n hn
      exact ⟨by rw [hF]; simp [hn], fun e => hnd.1 (e ▸ hn)⟩
    · intro n hn
      exact (P.mem0 (by rw [hF]; simp [hn])).1
    · intro q hq hqp
      rw [hk]; exact P.oldKids h0 _ hq hqp
    · intro q hq hqk
      exact (P.old q hq).trans (m.others q hqk (by omega))
    · intro q hq
      rw [hk, upd_ne (by omega), upd_ne (by omega)]
    · rw [hF]
      simp [← rep.2.length]
  · rw [hcp] at h1 m
    have hk := m.inv.kidsFun (upd_zero_nil hp _)
    refine ⟨_, d', t :: F', d.nodes.length :: ids, e, Or.inr ⟨?_, rfl, ?_⟩, by rw [hk, upd_same], ?_, ?_, rfl,
      ?_, ?_, ⟨r.dom, c1, P, rep0, ?_, m.len, ?_⟩⟩
    · intro tk tn F'' htk he
      rw [P.sib hklt] at h1
      simp only [List.cons.injEq] at he
      rw [he.1] at rep
      rcases h1 with h1 | h1
      · rw [h1] at htk; cases htk
      · rw [rep.1.text_some] at h1; cases h1
    · exact (P.old _ hklt).trans (m.same _)
    · refine P.keep hlt hk (G := fun _ => False) (by simp)
        (fun q hq hg => m.same q) ?_ (by simpa only [RepCL] using rep)
      intro n hn
      exact ⟨by rw [hF]; exact hn, id⟩
    · intro n hn
      exact (P.mem0 (by rw [hF]; exact hn)).1
    · intro q hq hqp
      rw [hk]; exact P.oldKids h0 _ hq hqp
    · intro q hq hqk
      exact (P.old q hq).trans (m.same q)
    · intro q hq
      rw [hk, upd_ne (by omega), upd_ne (by omega)]
    · rw [hF]
      have := rep.2.length
      simp [← this]

theorem appendHTML_frag {html : Str} {F : List Tree} (h : DomI d ch) (h0 : ch 0 = []) {junk : Nat → Out Bool} (hf : FParse junk html d ch F)
    {p : Nat} (hp : p ≠ 0) (hlt : p < d.nodes.length) :
    ∃ id d' F1 new, appendHTML junk p html d = .ok (id, d') ∧ MergeFirst d d' ((ch p).getLastD 0) F F1 ∧
      kids d' p = ch p ++ new ∧ RepL d' F1 new ∧ (∀ n ∈ new, d.nodes.length ≤ n) ∧
      id = new.headD ((ch p).getLastD 0) ∧
      (∀ q, q < d.nodes.length → q ≠ p → kids d' q = ch q) ∧
      (∀ m, m < d.nodes.length → m ≠ (ch p).getLastD 0 → SameNode d d' m) := by
  obtain ⟨id, d', F1, new, a1, a2, a3, a4, a5, a6, a7, a8, _⟩ := appendHTML_num h h0 hf hp hlt
  exact ⟨id, d', F1, new, a1, a2, a3, a4, a5, a6, a7, a8⟩

theorem headD_lt (h : DomI d ch) (p : Nat) : (ch p).headD 0 < d.nodes.length := by
  have := h.linked.two
  cases e : ch p with
  | nil => simp; omega
  | cons k l =>
    have := h.linked.range p k (by rw [e]; simp)
    simp; omega

theorem getLastD_split {l : List Nat} (hne : l ≠ []) : l = l.dropLast ++ [l.getLastD 0] := by
  rcases List.eq_nil_or_concat' l with e | ⟨m, k, e⟩
  · exact absurd e hne
  · subst e; simp

/-- How `prependHTMLFromString` inserts a fragment. -/
theorem prependHTML_num {html : Str} {F : List Tree} (h : DomI d ch) (h0 : ch 0 = []) {junk : Nat → Out Bool} (hf : FParse junk html d ch F)
    {p : Nat} (hp : p ≠ 0) (hlt : p < d.nodes.length) :
    ∃ id d' F1 new, prependHTML junk p html d = .ok (id, d') ∧ MergeLast d d' ((ch p).headD 0) F F1 ∧
      kids d' p = new ++ ch p ∧ RepL d' F1 new ∧ (∀ n ∈ new, d.nodes.length ≤ n) ∧
      id = new.headD ((ch p).headD 0) ∧
      (∀ q, q < d.nodes.length → q ≠ p → kids d' q = ch q) ∧
      (∀ m, m < d.nodes.length → m ≠ (ch p).headD 0 → SameNode d d' m) ∧ FromParse d ch F F F1 new d' := by
  have hne := hf.nonempty
  obtain ⟨r, c1, ids, hr, ho, P, hleaf, hF, rep⟩ := hf
  have hcp : c1 p = ch p := P.at hp hlt
  have hklt : (ch p).headD 0 < d.nodes.length := headD_lt h p
  have hsplit := getLastD_split (l := d.nodes.length :: ids) (by simp)
  have hnd := P.inv.linked.nodup 0
  have hmem : (d.nodes.length :: ids).getLastD 0 ∈ c1 0 := by rw [hF]; exact getLastD_mem (by simp)
  have hge := (P.mem0 hmem).1
  have rep9 := rep
  rw [hF, hsplit] at rep
  have rep0 := rep
  obtain ⟨F', t, rfl, rep1, rep2⟩ := rep.split_last
  rw [hF, hsplit, List.nodup_append] at hnd
  have hsub : ∀ n ∈ (d.nodes.length :: ids).dropLast, n ∈ c1 0 := by
    intro n hn; rw [hF]; exact List.dropLast_subset _ hn
  rcases prependHTML_ok hr ho P hleaf hF hp hlt with ⟨tk, tn, d', h1, h3, e, m⟩ | ⟨h1, d', e, m⟩
  · rw [hcp] at h1 e m
    have hk := m.inv.kidsFun (upd_zero_nil hp _)
    have ht := rep2.textOf h3
    refine ⟨_, d', F', _, e, Or.inl ⟨tk, tn, ?_, by rw [ht], m.text, ?_, ?_⟩, by rw [hk, upd_same], ?_, ?_, rfl,
      ?_, ?_, ⟨r.dom, c1, P, rep9, ?_, m.len, ?_⟩⟩
    · rw [← P.sib hklt]; exact h1
    · rw [m.attrs.1, (P.old _ hklt).pairs]
    · rw [m.attrs.2, (P.old _ hklt).bools]
    · refine P.keep hlt hk (G := fun g => g = (d.nodes.length :: ids).getLastD 0) (by rintro g rfl; exact hmem)
        (fun q hq hg => m.others q (by omega) hg) ?_ rep1
      intro n hn
      exact ⟨hsub n hn, fun e => hnd.2.2 n hn _ (by simp) e⟩
    · intro n hn
      exact (P.mem0 (hsub n hn)).1
    · intro q hq hqp
      rw [hk]; exact P.oldKids h0 _ hq hqp
    · intro q hq hqk
      exact (P.old q hq).trans (m.others q hqk (by omega))
    · intro q hq
      rw [hk, upd_ne (by omega), upd_ne (by omega)]
    · rw [Nat.sub_self, List.drop_zero, hF, ← rep1.length, List.length_dropLast, ← List.dropLast_eq_take]
  · rw [hcp] at h1 m
    have hk := m.inv.kidsFun (upd_zero_nil hp _)
    refine ⟨_, d', F' ++ [t], d.nodes.length :: ids, e, Or.inr ⟨?_, rfl, ?_⟩, by rw [hk, upd_same], ?_, ?_, rfl,
      ?_, ?_, ⟨r.dom, c1, P, rep9, ?_, m.len, ?_⟩⟩
    · intro tk tn F'' htk he
      rw [P.sib hklt] at h1
      have he := (List.append_inj' he rfl).2
      simp only [List.cons.injEq, and_true] at he
      rw [he] at rep2
      rcases h1 with h1 | h1
      · rw [h1] at htk; cases htk
      · rw [rep2.text_some] at h1; cases h1
    · exact (P.old _ hklt).trans (m.same _)
    · refine P.keep hlt hk (G := fun _ => False) (by simp)
        (fun q hq hg => m.same q) ?_ (by rw [← hsplit] at rep0; exact rep0)
      intro n hn
      exact ⟨by rw [hF]; exact hn, id⟩
    · intro n hn
      exact (P.mem0 (by rw [hF]; exact hn)).1
    · intro q hq hqp
      rw [hk]; exact P.oldKids h0 _ hq hqp
    · intro q hq hqk
      exact (P.old q hq).trans (m.same q)
    · intro q hq
      rw [hk, upd_ne (by omega), upd_ne (by omega)]
    · rw [Nat.sub_self, List.drop_zero, ← rep9.length, List.take_length, hF]

theorem prependHTML_frag {html : Str} {F : List Tree} (h : DomI d ch) (h0 : ch 0 = []) {junk : Nat → Out Bool} (hf : FParse junk html d ch F)
    {p : Nat} (hp : p ≠ 0) (hlt : p < d.nodes.length) :
    ∃ id d' F1 new, prependHTML junk p html d = .ok (id, d') ∧ MergeLast d d' ((ch p).headD 0) F F1 ∧
      kids d' p = new ++ ch p ∧ RepL d' F1 new ∧ (∀ n ∈ new, d.nodes.length ≤ n) ∧
      id = new.headD ((ch p).headD 0) ∧
      (∀ q, q < d.nodes.length → q ≠ p → kids d' q = ch q) ∧
      (∀ m, m < d.nodes.length → m ≠ (ch p).headD 0 → SameNode d d' m) := by
  obtain ⟨id, d', F1, new, a1, a2, a3, a4, a5, a6, a7, a8, _⟩ := prependHTML_num h h0 hf hp hlt
  exact ⟨id, d', F1, new, a1, a2, a3, a4, a5, a6, a7, a8⟩

/-! ## Replacement -/

theorem FirstStep.mergeFirst {k g : Nat} {F L : List Nat} {d2 : Dom} (fs : FirstStep d1 c1 k g F L d2)
    (P : Parsed d ch d1 c1) (hk : k < d.nodes.length) {t : Tree} {ts : List Tree} {lo hi : Nat}
    (ht : RepC d1 c1 lo hi t g) (hs : RepCL d1 c1 lo hi ts F) :
    ∃ F1, MergeFirst d d2 k (t :: ts) F1 ∧ RepCL d1 c1 lo hi F1 L ∧ (L = F ∧ F1 = ts ∨ L = g :: F ∧ F1 = t :: ts) := by
  rcases fs with ⟨tk, tg, h1, h2, rfl, m⟩ | ⟨h1, rfl, rfl⟩
  · refine ⟨ts, Or.inl ⟨tk, tg, ?_, by rw [ht.textOf h2], m.text, ?_, ?_⟩, hs, Or.inl ⟨rfl, rfl⟩⟩
    · rw [← P.sib hk]; exact h1
    · rw [m.attrs.1, (P.old _ hk).pairs]
    · rw [m.attrs.2, (P.old _ hk).bools]
  · refine ⟨t :: ts, Or.inr ⟨?_, rfl, P.old _ hk⟩, by simp only [RepCL]; exact ⟨ht, hs⟩, Or.inr ⟨rfl, rfl⟩⟩
    intro tk tn F' htk he
    rw [P.sib hk] at h1
    simp only [List.cons.injEq] at he
    rw [he.1] at ht
    rcases h1 with h1 | h1
    · rw [h1] at htk; cases htk
    · rw [ht.text_some] at h1; cases h1

theorem FirstStep.same {k g : Nat} {F L : List Nat} {d2 : Dom} (fs : FirstStep d1 c1 k g F L d2) {m : Nat}
    (h1 : m ≠ k) (h2 : L = F → m ≠ g) : SameNode d1 d2 m := by
  rcases fs with ⟨tk, tg, _, _, rfl, mm⟩ | ⟨_, rfl, rfl⟩
  · exact mm.others m h1 (h2 rfl)
  · exact SameNode.refl _ _

theorem Spec.MergeFirst.then {d2 d3 : Dom} {k : Nat} {F F1 : List Tree} (h : MergeFirst d d2 k F F1)
    (hs : SameNode d2 d3 k) : MergeFirst d d3 k F F1 := by
  rcases h with ⟨tk, tn, h1, h2, h3, h4, h5⟩ | ⟨h1, h2, h3⟩
  · exact Or.inl ⟨tk, tn, h1, h2, by rw [hs.text]; exact h3, by rw [hs.pairs]; exact h4, by rw [hs.bools]; exact h5⟩
  · exact Or.inr ⟨h1, h2, h3.trans hs⟩

theorem Spec.MergeLast.then {d2 d3 : Dom} {k : Nat} {F F1 : List Tree} (h : MergeLast d d2 k F F1)
    (hs : SameNode d2 d3 k) : MergeLast d d3 k F F1 := by
  rcases h with ⟨tk, tn, h1, h2, h3, h4, h5⟩ | ⟨h1, h2, h3⟩
  · exact Or.inl ⟨tk, tn, h1, h2, by rw [hs.text]; exact h3, by rw [hs.pairs]; exact h4, by rw [hs.bools]; exact h5⟩
  · exact Or.inr ⟨h1, h2, h3.trans hs⟩

/-- Replacement by a fragment of which something is left after merging. -/
theorem replaceHTML_num {html : Str} {F : List Tree} (h : DomI d ch) (h0 : ch 0 = []) {junk : Nat → Out Bool} (hf : FParse junk html d ch F)
    {p n : Nat} {l₁ l₂ : List Nat} (hp : p ≠ 0) (he : ch p = l₁ ++ n :: l₂)
    (hone : ∀ t, F = [.text t] → textOf d (l₁.getLastD 0) = none ∧ textOf d (l₂.headD 0) = none)
    (htwo : ∀ t u, F = [.text t, .text u] → textOf d (l₁.getLastD 0) = none ∨ textOf d (l₂.headD 0) = none) :
    ∃ id d' F1 F2 new, replaceWithHTML junk n html d = .ok (id, d') ∧
      MergeFirst d d' (l₁.getLastD 0) F F1 ∧ MergeLast d d' (l₂.headD 0) F1 F2 ∧
      kids d' p = l₁ ++ new ++ l₂ ∧ RepL d' F2 new ∧ new ≠ [] ∧ (∀ m ∈ new, d.nodes.length ≤ m) ∧
      id = new.headD 0 ∧ typeOf d' n = some .removed ∧
      (∀ q, q < d.nodes.length → q ≠ p → kids d' q = ch q) ∧
      (∀ m, m < d.nodes.length → m ≠ n → m ≠ l₁.getLastD 0 → m ≠ l₂.headD 0 → SameNode d d' m) ∧ FromParse d ch F F1 F2 new d' := by
  have hne := hf.nonempty
  obtain ⟨r, c1, ids, hr, ho, P, hleaf, hF, rep⟩ := hf
  have hnr := h.linked.range p n (by rw [he]; simp)
  have hlt : p < d.nodes.length := by omega
  have he1 : c1 p = l₁ ++ n :: l₂ := by rw [P.at hp hlt]; exact he
  obtain ⟨_, hpl⟩ := prev_of h he
  obtain ⟨_, hnl⟩ := next_of h he
  have h2 := h.linked.two
  have hnd0 := P.inv.linked.nodup 0
  have hndp := h.linked.nodup p
  rw [he, List.nodup_append, List.nodup_cons] at hndp
  have hprev_n : l₁.getLastD 0 ≠ n := by
    intro e
    rcases List.eq_nil_or_concat' l₁ with rfl | ⟨m, a, rfl⟩
    · simp at e; omega
    · simp at e; exact hndp.2.2 a (by simp) n (by simp) e
  have hnext_n : l₂.headD 0 ≠ n := by
    intro e
    cases l₂ with
    | nil => simp at e; omega
    | cons b m => simp at e; exact hndp.2.1.1 (by rw [e]; simp)
  have hpn : textOf d (l₂.headD 0) ≠ none → l₁.getLastD 0 ≠ l₂.headD 0 := by
    intro hx e
    cases l₂ with
    | nil => exact hx h.text_zero
    | cons b m =>
      have hb := h.linked.range p b (by rw [he]; simp)
      rcases List.eq_nil_or_concat' l₁ with rfl | ⟨m', a, rfl⟩
      · simp at e; omega
      · simp at e; exact hndp.2.2 a (by simp) b (by simp) e
  have rep9 := rep
  rw [hF] at rep hnd0
  obtain ⟨t, ts, rfl⟩ : ∃ t ts, F = t :: ts := List.exists_cons_of_ne_nil hne
  simp only [RepCL] at rep
  by_cases hFn : ids = []
  · subst hFn
    have hts : ts = [] := by
      cases ts with
      | nil => rfl
      | cons => simp [RepCL] at rep
    subst hts
    rcases replaceHTML_single hr ho P hleaf hF hp hnr.2.2 he1 with ⟨tn, k, tx, d', g1, _, _, hc⟩ | ⟨g1, d', e, i, s, g, hlen⟩
    · exfalso
      have ht := rep.1.textOf g1
      obtain ⟨n1, n2⟩ := hone tn (by rw [ht])
      rcases hc with ⟨tk, e, _⟩ | ⟨_, tk, e, _⟩
      · rw [P.sib hpl, n1] at e; cases e
      · rw [P.sib hnl, n2] at e; cases e
    · have hk := i.kidsFun (upd_zero_nil hp _)
      have hno : ∀ k, k < d.nodes.length → (textOf r.dom (l₁.getLastD 0) = none ∧ textOf r.dom (l₂.headD 0) = none →
          textOf d k = none) → ∀ tk tn, textOf d k = some tk → t ≠ .text tn := by
        intro k _ hkk tk tn htk ht
        rw [ht] at rep
        rcases g1 with g1 | g1
        · rw [rep.1.text_some] at g1; cases g1
        · rw [hkk g1] at htk; cases htk
      refine ⟨_, d', [t], [t], [d.nodes.length], e, Or.inr ⟨?_, rfl, ?_⟩, Or.inr ⟨?_, rfl, ?_⟩, ?_, ?_, by simp,
        by simp, rfl, g, ?_, ?_, ⟨r.dom, c1, P, rep9, ?_, hlen, by rw [hF]; simp⟩⟩
      · intro tk tn F' htk hx
        simp only [List.cons.injEq] at hx
        exact hno _ hpl (fun g => by rw [← P.sib hpl]; exact g.1) tk tn htk hx.1
      · exact (P.old _ hpl).trans (s _ hprev_n)
      · intro tk tn F' htk hx
        have hx := (List.append_inj' (s₁ := []) (t₁ := [t]) hx rfl).2
        simp only [List.cons.injEq, and_true] at hx
        exact hno _ hnl (fun g => by rw [← P.sib hnl]; exact g.2) tk tn htk hx
      · exact (P.old _ hnl).trans (s _ hnext_n)
      · rw [hk, upd_same]; simp
      · refine P.keep hlt hk (G := fun _ => False) (by simp)
          (fun q hq hg => s q (by omega)) ?_ (by simpa only [RepCL] using rep)
        intro n hn
        exact ⟨by rw [hF]; exact hn, id⟩
      · intro q hq hqp
        rw [hk]; exact P.oldKids h0 _ hq hqp
      · intro q hq hqn _ _
        exact (P.old q hq).trans (s q hqn)
      · intro q hq
        rw [hk, upd_ne (by omega), upd_ne (by omega)]
  · have hsome : ∀ d2 d3, FirstStep r.dom c1 (l₁.getLastD 0) d.nodes.length ids ids d2 →
        ¬LastStep d2 (upd c1 0 ids) (l₂.headD 0) ids [] d3 := by
      intro d2 d3 fs ls
      rcases ls with ⟨tk, tg, e1, e2, e3, m⟩ | ⟨_, e3, _⟩
      · obtain ⟨b, hb⟩ : ∃ b, ids = [b] := by
          cases ids with
          | nil => exact absurd rfl hFn
          | cons b F =>
            cases F with
            | nil => exact ⟨b, rfl⟩
            | cons c F => simp at e3
        subst hb
        have hbr := P.mem0 (c := b) (by rw [hF]; simp)
        have hbN := P.later hF (c := b) (by simp)
        have e2 : textOf d2 b = some tg := e2
        obtain ⟨u, rfl⟩ : ∃ u, ts = [u] := by
          cases ts with
          | nil => simp [RepCL] at rep
          | cons u us =>
            cases us with
            | nil => exact ⟨u, rfl⟩
            | cons => simp [RepCL] at rep
        simp only [RepCL, and_true] at rep
        rcases fs with ⟨tp, tn, f1, f2, _, m1⟩ | ⟨_, f3, _⟩
        · have e1' : textOf r.dom (l₂.headD 0) = some tk := by
            rw [← e1]
            refine (m1.others _ ?_ (by omega)).text.symm
            intro e
            cases l₂ with
            | nil =>
              rw [List.headD_nil] at e1
              rw [m1.inv.text_zero] at e1; cases e1
            | cons x l =>
              rcases List.eq_nil_or_concat' l₁ with rfl | ⟨ms, a, rfl⟩
              · simp at e
                have := P.inv.linked.range p x (by rw [he1]; simp)
                omega
              · simp at e
                exact hndp.2.2 a (by simp) x (by simp) e.symm
          have e2' : textOf r.dom b = some tg := by
            rw [← e2]
            refine (m1.others _ ?_ ?_).text.symm
            · omega
            · omega
          rcases htwo tn tg (by rw [rep.1.textOf f2, rep.2.textOf e2']) with hx | hx
          · rw [P.sib hpl, hx] at f1; cases f1
          · rw [P.sib hnl, hx] at e1'; cases e1'
        · simp at f3
      · exact absurd e3.symm hFn
    obtain ⟨L, d2, L', d3, d', fs, ls, hL', hhead, e, i, s, g, hlen⟩ :=
      replaceHTML_multi hr ho P hleaf hF hp hnr.2.2 he1 hFn hsome
    have hk := i.kidsFun (upd_zero_nil hp _)
    obtain ⟨F1, mf, repL, hL⟩ := fs.mergeFirst P hpl rep.1 rep.2
    have hLsub : ∀ c ∈ L, c ∈ c1 0 := by
      intro c hc
      rw [hF]
      rcases hL with ⟨rfl, _⟩ | ⟨rfl, _⟩
      · simp [hc]
      · exact hc
    have hLnd : L.Nodup := by
      rcases hL with ⟨rfl, _⟩ | ⟨rfl, _⟩
      · exact (List.nodup_cons.mp hnd0).2
      · exact hnd0
    have hLN : L = ids → d.nodes.length ∉ L := by
      rintro rfl; exact (List.nodup_cons.mp hnd0).1
    have hLne : L ≠ [] := by
      rintro rfl
      rcases hL with ⟨hx, _⟩ | ⟨hx, _⟩
      · exact hFn hx.symm
      · cases hx
    have hsplit := getLastD_split hLne
    have hlastmem : L.getLastD 0 ∈ c1 0 := hLsub _ (getLastD_mem hLne)
    have hlastge := (P.mem0 hlastmem).1
    have htext2 : l₁.getLastD 0 ≠ l₂.headD 0 → textOf d2 (l₂.headD 0) = textOf d (l₂.headD 0) := by
      intro hx
      rw [(fs.same (Ne.symm hx) (fun _ => by omega)).text, P.sib hnl]
    have same12 : ∀ m ∈ L, SameNode r.dom d2 m := by
      intro m hm
      refine fs.same ?_ ?_
      · have := (P.mem0 (hLsub m hm)).1; omega
      · intro hx e; exact hLN hx (e ▸ hm)
    have hcases : l₁.getLastD 0 = l₂.headD 0 → textOf d2 (l₂.headD 0) = none ∧ textOf d (l₂.headD 0) = none := by
      intro hx
      by_cases hz : textOf d (l₂.headD 0) = none
      · refine ⟨?_, hz⟩
        rcases fs with ⟨tp, tn, f1, _⟩ | ⟨_, _, rfl⟩
        · rw [hx, P.sib hnl, hz] at f1; cases f1
        · rw [P.sib hnl, hz]
      · exact absurd hx (hpn hz)
    have key : ∃ F2, MergeLast d d3 (l₂.headD 0) F1 F2 ∧ RepCL r.dom c1 0 r.dom.nodes.length F2 L' ∧
        (∀ m, m ≠ l₂.headD 0 → (L' ≠ L → m ≠ L.getLastD 0) → SameNode d2 d3 m) ∧
        (L' = L ∨ L' = L.dropLast ∧ l₁.getLastD 0 ≠ l₂.headD 0) := by
      rcases ls with ⟨tk, tg, e1, e2, rfl, m⟩ | ⟨hn, rfl, rfl⟩
      · have hne : l₁.getLastD 0 ≠ l₂.headD 0 := by
          intro hx; rw [(hcases hx).1] at e1; cases e1
        have hsm : SameNode d d2 (l₂.headD 0) :=
          (P.old _ hnl).trans (fs.same (Ne.symm hne) (fun _ => by omega))
        rw [hsplit] at repL
        obtain ⟨F2, u, rfl, r1, r2⟩ := repL.split_last
        have e2' : textOf r.dom (L.getLastD 0) = some tg := by
          rw [← e2]; exact (same12 _ (getLastD_mem hLne)).text.symm
        refine ⟨F2, Or.inl ⟨tk, tg, ?_, by rw [r2.textOf e2'], m.text, ?_, ?_⟩, r1, ?_, Or.inr ⟨rfl, hne⟩⟩
        · rw [← htext2 hne]; exact e1
        · rw [m.attrs.1, hsm.pairs]
        · rw [m.attrs.2, hsm.bools]
        · intro q hq1 hq2
          refine m.others q hq1 (hq2 ?_)
          intro hx
          have := congrArg List.length hx
          rw [List.length_dropLast] at this
          have := List.length_pos_iff.mpr hLne
          omega
      · refine ⟨F1, Or.inr ⟨?_, rfl, ?_⟩, repL, fun m _ _ => SameNode.refl _ _, Or.inl rfl⟩
        · intro tk tn F' htk hx
          have hne : l₁.getLastD 0 ≠ l₂.headD 0 := hpn (by rw [htk]; simp)
          rcases hn with hn | hn
          · rw [htext2 hne, htk] at hn; cases hn
          · rw [hsplit] at repL
            obtain ⟨F2, u, e', r1, r2⟩ := repL.split_last
            rw [hx] at e'
            have e' := (List.append_inj' e' rfl).2
            simp only [List.cons.injEq, and_true] at e'
            rw [← e'] at r2
            rw [(same12 _ (getLastD_mem hLne)).text, r2.text_some] at hn
            cases hn
        · by_cases hx : l₁.getLastD 0 = l₂.headD 0
          · have hz := (hcases hx).2
            rcases mf with ⟨tk, tn, m1, _⟩ | ⟨_, _, m3⟩
            · rw [hx, hz] at m1; cases m1
            · rw [← hx]; exact m3
          · exact (P.old _ hnl).trans (fs.same (Ne.symm hx) (fun _ => by omega))
    obtain ⟨F2, ml, rep2, same23, hL2⟩ := key
    have hsub' : ∀ m ∈ L', m ∈ L := by
      intro m hm
      rcases hL2 with rfl | ⟨rfl, _⟩
      · exact hm
      · exact List.dropLast_subset _ hm
    have same3 : SameNode d2 d3 (l₁.getLastD 0) := by
      rcases hL2 with rfl | ⟨rfl, hne⟩
      · rcases ls with ⟨_, _, e1, _, hx, m⟩ | ⟨_, _, rfl⟩
        · have := congrArg List.length hx
          rw [List.length_dropLast] at this
          have := List.length_pos_iff.mpr hLne
          omega
        · exact SameNode.refl _ _
      · exact same23 _ hne (fun _ => by omega)
    refine ⟨_, d', F1, F2, L', e, (mf.then same3).then (s _ hprev_n), ml.then (s _ hnext_n), by rw [hk, upd_same], ?_,
      hL', ?_, rfl, g, ?_, ?_, ⟨r.dom, c1, P, rep9, ?_, hlen, ?_⟩⟩
    · refine P.keep hlt hk
        (G := fun g => (L = ids ∧ g = d.nodes.length) ∨ (L' ≠ L ∧ g = L.getLastD 0)) ?_ ?_ ?_ rep2
      · rintro g (⟨_, rfl⟩ | ⟨_, rfl⟩)
        · rw [hF]; simp
        · exact hlastmem
      · intro m hm hg
        rw [not_or] at hg
        refine ((fs.same (by omega) (fun hx e => hg.1 ⟨hx, e⟩)).trans (same23 m (by omega) ?_)).trans (s m (by omega))
        intro hx e'; exact hg.2 ⟨hx, e'⟩
      · intro m hm
        refine ⟨hLsub m (hsub' m hm), ?_⟩
        rintro (⟨hx, rfl⟩ | ⟨hx, rfl⟩)
        · exact hLN hx (hsub' _ hm)
        · rcases hL2 with rfl | ⟨rfl, _⟩
          · exact hx rfl
          · rw [hsplit, List.nodup_append] at hLnd
            exact hLnd.2.2 _ hm _ (by simp) rfl
    · intro m hm
      exact (P.mem0 (hLsub m (hsub' m hm))).1
    · intro q hq hqp
      rw [hk]; exact P.oldKids h0 _ hq hqp
    · intro q hq hqn hq1 hq2
      exact (((P.old q hq).trans (fs.same hq1 (fun _ => by omega))).trans
        (same23 q hq2 (fun _ => by omega))).trans (s q hqn)
    · intro q hq
      rw [hk, upd_ne (by omega), upd_ne (by omega)]
    · have hLd : L = (c1 0).drop ((t :: ts).length - F1.length) := by
        rw [hF]
        rcases hL with ⟨rfl, rfl⟩ | ⟨rfl, rfl⟩
        · simp
        · simp
      rw [← hLd, ← rep2.length]
      rcases hL2 with hx | ⟨hx, _⟩
      · rw [hx, List.take_length]
      · rw [hx, List.length_dropLast, ← List.dropLast_eq_take]

theorem replaceHTML_frag {html : Str} {F : List Tree} (h : DomI d ch) (h0 : ch 0 = []) {junk : Nat → Out Bool} (hf : FParse junk html d ch F)
    {p n : Nat} {l₁ l₂ : List Nat} (hp : p ≠ 0) (he : ch p = l₁ ++ n :: l₂)
    (hone : ∀ t, F = [.text t] → textOf d (l₁.getLastD 0) = none ∧ textOf d (l₂.headD 0) = none)
    (htwo : ∀ t u, F = [.text t, .text u] → textOf d (l₁.getLastD 0) = none ∨ textOf d (l₂.headD 0) = none) :
    ∃ id d' F1 F2 new, replaceWithHTML junk n html d = .ok (id, d') ∧
      MergeFirst d d' (l₁.getLastD 0) F F1 ∧ MergeLast d d' (l₂.headD 0) F1 F2 ∧
      kids d' p = l₁ ++ new ++ l₂ ∧ RepL d' F2 new ∧ new ≠ [] ∧ (∀ m ∈ new, d.nodes.length ≤ m) ∧
      id = new.headD 0 ∧ typeOf d' n = some .removed ∧
      (∀ q, q < d.nodes.length → q ≠ p → kids d' q = ch q) ∧
      (∀ m, m < d.nodes.length → m ≠ n → m ≠ l₁.getLastD 0 → m ≠ l₂.headD 0 → SameNode d d' m) := by
  obtain ⟨id, d', F1, F2, new, a1, a2, a3, a4, a5, a6, a7, a8, a9, a10, a11, _⟩ := replaceHTML_num h h0 hf hp he hone htwo
  exact ⟨id, d', F1, F2, new, a1, a2, a3, a4, a5, a6, a7, a8, a9, a10, a11⟩

/-- Replacement by a single text that is merged into a neighbour, with neighbours on both sides. -/
theorem replaceHTML_swallow_num {html : Str} {tn : Str} (h : DomI d ch) (h0 : ch 0 = []) {junk : Nat → Out Bool} (hf : FParse junk html d ch [.text tn])
    {p n : Nat} {l₁ l₂ : List Nat} (hp : p ≠ 0) (he : ch p = l₁ ++ n :: l₂)
    (hm : textOf d (l₁.getLastD 0) ≠ none ∨ textOf d (l₂.headD 0) ≠ none) :
    ∃ d' k tx, replaceWithHTML junk n html d =
        (if l₁ = [] then .ub .nullDeref else .ok (if l₂ = [] then 0 else l₁.getLastD 0, d')) ∧
      ((∃ tk, textOf d (l₁.getLastD 0) = some tk ∧ k = l₁.getLastD 0 ∧ tx = tk ++ [32] ++ tn) ∨
       (textOf d (l₁.getLastD 0) = none ∧ ∃ tk, textOf d (l₂.headD 0) = some tk ∧ k = l₂.headD 0 ∧
          tx = tn ++ [32] ++ tk)) ∧
      DomI d' (dropTree d.nodes.length ch n) ∧ textOf d' k = some tx ∧ pairs d' k = pairs d k ∧
      bools d' k = bools d k ∧ (∀ m ∈ pre d.nodes.length ch n, typeOf d' m = some .removed) ∧
      (∀ m, m < d.nodes.length → m ≠ k → m ∉ pre d.nodes.length ch n → SameNode d d' m) ∧ d'.nodes.length = d.nodes.length + 1 := by
  have hne := hf.nonempty
  obtain ⟨r, c1, ids, hr, ho, P, hleaf, hF, rep⟩ := hf
  have hnr := h.linked.range p n (by rw [he]; simp)
  have hlt : p < d.nodes.length := by omega
  have he1 : c1 p = l₁ ++ n :: l₂ := by rw [P.at hp hlt]; exact he
  obtain ⟨_, hpl⟩ := prev_of h he
  obtain ⟨_, hnl⟩ := next_of h he
  rw [hF] at rep
  obtain ⟨rep1, rep2⟩ : RepC _ _ _ _ _ _ ∧ RepCL _ _ _ _ _ _ := by simpa only [RepCL] using rep
  have hids : ids = [] := by
    cases ids with
    | nil => rfl
    | cons => simp [RepCL] at rep2
  subst hids
  have hlen : r.dom.nodes.length = d.nodes.length + 1 := by
    have ho := P.order
    have hle := P.le
    have htwo := P.inv.linked.two
    rw [pre_eq P.inv.linked.up (by omega), hF, List.flatMap_cons, List.flatMap_nil,
      pre_eq P.inv.linked.up (P.mem0 (c := d.nodes.length) (by rw [hF]; simp)).2,
      hleaf _ (Nat.le_refl _) (typeOf_of_text rep1.text_some)] at ho
    have := congrArg List.length ho
    simp at this
    omega
  have hback : upd c1 0 [] = ch := by
    funext q
    by_cases hq : q = 0
    · subst hq; rw [upd_same, h0]
    · rw [upd_ne hq]
      by_cases hql : q < d.nodes.length
      · exact P.at hq hql
      · have e1 : ch q = [] := by
          rw [List.eq_nil_iff_forall_not_mem]
          intro c hc; have := h.linked.range q c hc; omega
        have e2 : c1 q = [] := by
          rw [List.eq_nil_iff_forall_not_mem]
          intro c hc; have := P.inv.linked.range q c hc; omega
        rw [e1, e2]
  rcases replaceHTML_single hr ho P hleaf hF hp hnr.2.2 he1 with ⟨tn', k, tx, d', g1, g2, ab, hc⟩ | ⟨g1, _⟩
  · have htn : tn' = tn := by
      rw [rep1.text_some] at g1; simpa using g1.symm
    subst htn
    rw [P.sib hpl, P.sib hnl] at hc
    rw [hback] at ab
    have hpre : pre r.dom.nodes.length ch n = pre d.nodes.length ch n := pre_mono h.linked.up P.le hnr.2.2
    have hdrop := dropTree_mono h.linked.up P.le hnr.2.2
    have hklt : k < d.nodes.length := by
      rcases hc with ⟨_, _, rfl, _⟩ | ⟨_, _, _, rfl, _⟩
      · exact hpl
      · exact hnl
    refine ⟨d', k, tx, g2, hc, by rw [← hdrop]; exact ab.inv, ab.text, ?_, ?_, by rw [← hpre]; exact ab.gone, ?_, ?_⟩
    · rw [ab.attrs.1, (P.old k hklt).pairs]
    · rw [ab.attrs.2, (P.old k hklt).bools]
    · intro m hm hmk hmp
      exact (P.old m hm).trans (ab.others m hmk (by omega) (by rw [hpre]; exact hmp))
    · rw [ab.len, hlen]
  · exfalso
    rw [P.sib hpl, P.sib hnl, rep1.text_some] at g1
    rcases g1 with g1 | g1
    · cases g1
    · rcases hm with hm | hm
      · exact hm g1.1
      · exact hm g1.2

theorem replaceHTML_swallow {html : Str} {tn : Str} (h : DomI d ch) (h0 : ch 0 = []) {junk : Nat → Out Bool} (hf : FParse junk html d ch [.text tn])
    {p n : Nat} {l₁ l₂ : List Nat} (hp : p ≠ 0) (he : ch p = l₁ ++ n :: l₂)
    (hm : textOf d (l₁.getLastD 0) ≠ none ∨ textOf d (l₂.headD 0) ≠ none) :
    ∃ d' k tx, replaceWithHTML junk n html d =
        (if l₁ = [] then .ub .nullDeref else .ok (if l₂ = [] then 0 else l₁.getLastD 0, d')) ∧
      ((∃ tk, textOf d (l₁.getLastD 0) = some tk ∧ k = l₁.getLastD 0 ∧ tx = tk ++ [32] ++ tn) ∨
       (textOf d (l₁.getLastD 0) = none ∧ ∃ tk, textOf d (l₂.headD 0) = some tk ∧ k = l₂.headD 0 ∧
          tx = tn ++ [32] ++ tk)) ∧
      DomI d' (dropTree d.nodes.length ch n) ∧ textOf d' k = some tx ∧ pairs d' k = pairs d k ∧
      bools d' k = bools d k ∧ (∀ m ∈ pre d.nodes.length ch n, typeOf d' m = some .removed) ∧
      (∀ m, m < d.nodes.length → m ≠ k → m ∉ pre d.nodes.length ch n → SameNode d d' m) := by
  obtain ⟨d', k, tx, a1, a2, a3, a4, a5, a6, a7, a8, _⟩ := replaceHTML_swallow_num h h0 hf hp he hm
  exact ⟨d', k, tx, a1, a2, a3, a4, a5, a6, a7, a8⟩

end
end Flo
