import Verif.Proofs.Duplicate
import Verif.Proofs.EditHtml
import Verif.Proofs.Attrs
import Verif.Spec.History
/-!
# Every reachable DOM satisfies the invariant
-/
namespace Flo
open Spec

/-- The invariant between calls: nothing floats. -/
def Inv (d : Dom) : Prop := ∃ ch, DomI d ch ∧ ch 0 = []

section
variable {d : Dom} {ch : Nat → List Nat}

theorem HasParent.get (h : DomI d ch) {n : Nat} (hp : HasParent d n) : ∃ p l₁ l₂, p ≠ 0 ∧ ch p = l₁ ++ n :: l₂ := by
  obtain ⟨p, hp⟩ := hp
  obtain ⟨h1, h2⟩ := h.linked.mem_kids hp
  obtain ⟨l₁, l₂, e⟩ := List.append_of_mem h2
  exact ⟨p, l₁, l₂, h1, e⟩

theorem HasParent.of (h : DomI d ch) {n p : Nat} (hp : p ≠ 0) (hn : n ∈ ch p) : HasParent d n :=
  ⟨p, by rw [h.linked.kids_eq hp]; exact hn⟩

/-- Keeping `ch` and changing one node's payload. -/
theorem DomI.setNode (h : DomI d ch) {n : Nat} {nd nd' : Node} (hn : 2 ≤ n) (hnd : d.nodes[n]? = some nd)
    (hty : nd'.type = nd.type) (hg : NodeGood d.tagReg nd') :
    DomI { d with nodes := d.nodes.set n nd' } ch ∧
      ∀ m, m ≠ n → SameNode d { d with nodes := d.nodes.set n nd' } m := by
  have hlt := lt_of_some hnd
  have hk : Kept d { d with nodes := d.nodes.set n nd' } := ⟨_, _, _, _, rfl⟩
  have hs : ∀ m, m ≠ n → SameNode d { d with nodes := d.nodes.set n nd' } m := fun m hm =>
    hk.same (by show (d.nodes.set _ _)[m]? = _; rw [List.getElem?_set_ne (Ne.symm hm)])
  have hget : ({ d with nodes := d.nodes.set n nd' } : Dom).nodes[n]? = some nd' := by
    show (d.nodes.set _ _)[n]? = _
    simp [hlt]
  refine ⟨h.update hk (by
      show Linked (d.nodes.set n _).length _ _ _ _
      rw [List.length_set]; exact h.linked) (by simp) ?_ ?_, hs⟩
  · intro k nd1 hk
    by_cases hki : k = n
    · subst hki
      rw [hget] at hk; cases hk
      exact Or.inr ⟨hn, hg⟩
    · left
      have hk : (d.nodes.set n _)[k]? = some nd1 := hk
      rw [List.getElem?_set_ne (Ne.symm hki)] at hk
      exact hk
  · intro p c hc
    have := h.kind p c hc
    unfold IsKid at this ⊢
    by_cases hci : c = n
    · subst hci
      rw [typeOf_eq hget, hty, ← typeOf_eq hnd]; exact this
    · rw [(hs c hci).type]; exact this

theorem DomI.ge_two (h : DomI d ch) {n : Nat} {t : NodeType} (hn : typeOf d n = some t) (h1 : t ≠ .error)
    (h2 : t ≠ .root) : 2 ≤ n := by
  rcases n with _ | _ | n
  · rw [h.zero] at hn; cases hn; simp at h1
  · have := h.root
    rw [show (0 : Nat) + 1 = 1 from rfl] at hn
    rw [this] at hn; cases hn; simp at h2
  · omega

theorem addText_spec (h : DomI d ch) {n : Nat} {t : Str} (hn : textOf d n = some t) (text : Str) (app : Bool) :
    ∃ d', addTextToTextNode n text app d = .ok d' ∧ DomI d' ch ∧
      textOf d' n = some (if app then t ++ [32] ++ text else text ++ [32] ++ t) ∧
      (∀ m, m ≠ n → SameNode d d' m) ∧ d'.nodes.length = d.nodes.length := by
  have h2 := h.ge_two (typeOf_of_text hn) (by simp) (by simp)
  have hnd := textOf_eq.mp hn
  unfold addTextToTextNode
  simp only [Dom.node, hnd, Out.bind_ok, Node.getText, Dom.setNode]
  obtain ⟨h3, h4⟩ := h.setNode (nd' := ⟨.text, .text (if app then t ++ [cSp] ++ text else text ++ [cSp] ++ t)⟩)
    h2 hnd rfl ⟨fun _ => ⟨_, rfl⟩, by simp⟩
  refine ⟨_, rfl, h3, ?_, h4, by simp⟩
  rw [textOf_eq]
  show (d.nodes.set _ _)[n]? = _
  rw [List.getElem?_set_self (lt_of_some hnd)]

theorem setTag_inv (h : DomI d ch) {n : Nat} (hn : typeOf d n = some .document) {tag : Str} {can : Bool} {d' : Dom}
    (hr : setTag tag n can d = .ok d') :
    DomI d' ch ∧ tagOf d' n = some tag ∧ (∀ m, m ≠ n → SameNode d d' m) ∧
      (pairs d' n = pairs d n ∧ bools d' n = bools d n) ∧ d'.nodes.length = d.nodes.length := by
  have h2 := h.ge_two hn (by simp) (by simp)
  obtain ⟨nd, hnd, hty⟩ := typeOf_some hn
  obtain ⟨t, nd', s1, s2, s3, s4, s5, s6, s7, s8, s9, s10, s11⟩ := setTag_spec h.names hr
  rw [hnd] at s1; cases s1
  have hlt := lt_of_some hnd
  have hgetn : d'.nodes[n]? = some ⟨.document, .tag t⟩ := by
    rw [s3, List.getElem?_set_self hlt, hty]
  have hget : ∀ m, m ≠ n → d'.nodes[m]? = d.nodes[m]? := fun m hm => by
    rw [s3, List.getElem?_set_ne (Ne.symm hm)]
  have htlt : t < d'.tagReg.length := by
    rw [Option.map_eq_some_iff] at s4
    obtain ⟨x, hx, _⟩ := s4
    exact lt_of_some hx
  have hlen : d'.nodes.length = d.nodes.length := by rw [s3]; simp
  have hs : ∀ m, m ≠ n → SameNode d d' m := by
    intro m hm
    have hn := hget m hm
    refine ⟨by simp [typeOf, hn], by simp [textOf, hn], ?_, s10 m, s11 m⟩
    unfold tagOf
    rw [hn]
    split
    · rename_i t' ht
      obtain ⟨t'', e1, _, e2⟩ := (h.good m _ ht).doc rfl
      cases e1
      obtain ⟨x, hx⟩ := s8
      rw [← hx, List.getElem?_append_left e2]
    · rfl
  refine ⟨⟨?_, s9, ?_, by rw [hlen]; exact h.cap, ?_, ?_, ?_, ?_⟩, ?_, hs, ⟨s10 n, s11 n⟩, hlen⟩
  · unfold LinkedD
    rw [hlen, s5, s6, s7]; exact h.linked
  · intro m hm
    rw [s10, s11]; exact h.fresh m (by rw [← hlen]; exact hm)
  · rw [(hs 0 (by omega)).type]; exact h.zero
  · rw [hget 1 (by omega)]; exact h.rootN
  · intro i nd1 hi
    by_cases hin : i = n
    · subst hin
      rw [hgetn] at hi; cases hi
      exact ⟨by simp, fun _ => ⟨t, rfl, s2, htlt⟩⟩
    · rw [hget i hin] at hi
      have := h.good i nd1 hi
      refine ⟨this.text, fun e => ?_⟩
      obtain ⟨t', e1, e2⟩ := this.doc e
      exact ⟨t', e1, by have := s8.length_le; omega⟩
  · intro p c hc
    have := h.kind p c hc
    unfold IsKid at this ⊢
    by_cases hci : c = n
    · subst hci; right; exact typeOf_eq hgetn
    · rw [(hs c hci).type]; exact this
  · unfold tagOf
    rw [hgetn]
    exact s4

theorem upd_zero_nil {p : Nat} (hp : p ≠ 0) (L : List Nat) : upd (upd ch 0 []) p L 0 = [] := by
  rw [upd_ne (Ne.symm hp), upd_same]

theorem upd_nil {p : Nat} (hp : p ≠ 0) (h0 : ch 0 = []) (L : List Nat) : upd ch p L 0 = [] := by
  rw [upd_ne (Ne.symm hp), h0]

theorem dropTree_nil {N n : Nat} (h0 : ch 0 = []) : dropTree N ch n 0 = [] := by
  unfold dropTree; split <;> simp [h0]

theorem dropBelow_nil {N n : Nat} (h0 : ch 0 = []) : dropBelow N ch n 0 = [] := by
  unfold dropBelow; split <;> simp [h0]

theorem runAttr_post (h : DomI d ch) (op : AttrOp) (hn : IsNode d op.node) :
    Post NoUB (fun d' => ∃ f g, AttrStep d d' op.node f g) (runAttr op d) := by
  cases op with
  | add n k v =>
    refine (addProperty_post n k v d).eqn.mono (fun d' hr => ?_)
    exact ⟨_, _, addProperty_step h.names hr.1⟩
  | addBool n b =>
    refine (addBoolProperty_post n b d).eqn.mono (fun d' hr => ?_)
    exact ⟨_, _, addBoolProperty_step h.names hr.1⟩
  | set n k v =>
    refine (setPropertyValue_post n k v d).bind (fun r hr _ => ?_)
    exact ⟨_, _, (setPropertyValue_step h.names hn.1 hr).1⟩
  | remove n k => exact ⟨_, _, removeProperty_step h.names hn.1 k⟩
  | removeBool n b => exact ⟨_, _, removeBoolProperty_step h.names hn.1 b⟩

/-- The fragment that an HTML operation parses, if any. -/
def Op.html : Op → Str
  | .appendHTML _ h | .prependHTML _ h | .replaceHTML _ h => h
  | _ => []

theorem Reads.post {E : Why → Prop} {junk : Nat → Out Bool} (hj : Reads junk) (i : Nat) :
    Post E (fun _ => True) (junk i) := by
  obtain ⟨b, hb⟩ := hj i; rw [hb]; trivial

theorem Parsed.fragTop {c1 : Nat → List Nat} {r : ParseRes} (P : Parsed d ch r.dom c1) {F : List Nat}
    (hF : c1 0 = d.nodes.length :: F) : Spec.fragTop d r = d.nodes.length :: F := by
  unfold Spec.fragTop
  have hl := P.inv.linked.length_lt 0
  have := P.inv.linked.chainFrom_eq 0 F [] d.nodes.length r.dom.nodes.length (by rw [hF]; rfl)
    (by rw [hF] at hl; simp at hl ⊢; omega)
  exact this

theorem Parsed.inv0 {c1 : Nat → List Nat} {d1 : Dom} (P : Parsed d ch d1 c1) : Inv d1 :=
  ⟨_, P.inv.forget, by simp⟩

theorem Parsed.at {c1 : Nat → List Nat} {d1 : Dom} (P : Parsed d ch d1 c1) {p : Nat} (hp : p ≠ 0)
    (hlt : p < d.nodes.length) : c1 p = ch p := P.frame p hp hlt

/-- Sibling texts are not affected by the fragment parse. -/
theorem Parsed.sib {c1 : Nat → List Nat} {d1 : Dom} (P : Parsed d ch d1 c1) {m : Nat} (hm : m < d.nodes.length) :
    textOf d1 m = textOf d m := (P.old m hm).text

theorem prev_of (h : DomI d ch) {p n : Nat} {l₁ l₂ : List Nat} (he : ch p = l₁ ++ n :: l₂) :
    getPrevious n d = l₁.getLastD 0 ∧ l₁.getLastD 0 < d.nodes.length := by
  have h2 := h.linked.two
  rcases List.eq_nil_or_concat' l₁ with rfl | ⟨m, a, rfl⟩
  · refine ⟨h.linked.getPrevious_first (p := p) (by rw [he]; rfl), by simp; omega⟩
  · refine ⟨?_, ?_⟩
    · rw [h.linked.getPrevious_eq (p := p) (a := a) (by rw [he]; exact adj_iff_split.mpr ⟨m, l₂, by simp⟩)]
      simp
    · have := h.linked.range p a (by rw [he]; simp)
      simp; omega

theorem next_of (h : DomI d ch) {p n : Nat} {l₁ l₂ : List Nat} (he : ch p = l₁ ++ n :: l₂) :
    getNext n d = l₂.headD 0 ∧ l₂.headD 0 < d.nodes.length := by
  have h2 := h.linked.two
  cases l₂ with
  | nil => exact ⟨h.linked.getNext_last (p := p) (by rw [he]; simp), by simp; omega⟩
  | cons b m =>
    refine ⟨?_, ?_⟩
    · rw [h.linked.getNext_eq (p := p) (b := b) (by rw [he]; exact adj_iff_split.mpr ⟨l₁, m, rfl⟩)]
      simp
    · have := h.linked.range p b (by rw [he]; simp)
      simp; omega


theorem replaceHTML_inv {junk : Nat → Out Bool} {html : Str} (h : DomI d ch)
    {n : Nat} (hp : HasParent d n) (hs : ReplaceSafe junk n html d) {r : ParseRes} {c1 : Nat → List Nat} {F : List Nat}
    (hr : parseExtra junk html d = .ok r) (ho : r.ok = true) (P : Parsed d ch r.dom c1)
    (hleaf : ∀ q, d.nodes.length ≤ q → typeOf r.dom q = some .text → c1 q = []) (hF : c1 0 = d.nodes.length :: F) :
    Post NoUB (fun x => Inv x.2) (replaceWithHTML junk n html d) := by
  obtain ⟨p, l₁, l₂, hp0, he⟩ := HasParent.get h hp
  have hnr := h.linked.range p n (by rw [he]; simp)
  have he1 : c1 p = l₁ ++ n :: l₂ := by rw [P.at hp0 (by omega)]; exact he
  obtain ⟨hpv, hpl⟩ := prev_of h he
  obtain ⟨hnx, hnl⟩ := next_of h he
  obtain ⟨s1, s2⟩ := hs r hr ho
  rw [P.fragTop hF, hpv, hnx] at s1 s2
  by_cases hFn : F = []
  · subst hFn
    rcases replaceHTML_single hr ho P hleaf hF hp0 hnr.2.2 he1 with ⟨tn, k, t, d', h1, h2, ab, hc⟩ | ⟨_, d', h2, h3, _⟩
    · have hl1 : l₁ ≠ [] := by
        rintro rfl
        have hz : textOf r.dom (([] : List Nat).getLastD 0) = none := P.inv.text_zero
        rcases hc with ⟨tk, e, _⟩ | ⟨_, tk, e, _⟩
        · rw [hz] at e; cases e
        · rw [P.sib hnl] at e
          rcases s1 _ rfl rfl with h | h
          · rw [h] at h1; cases h1
          · rw [h] at e; cases e
      rw [h2, if_neg hl1]
      exact ⟨_, ab.inv, dropTree_nil (by simp)⟩
    · rw [h2]
      exact ⟨_, h3, upd_zero_nil hp0 _⟩
  · obtain ⟨L, d2, L', d3, d', _, _, _, _, e, inv, _⟩ := replaceHTML_multi hr ho P hleaf hF hp0 hnr.2.2 he1 hFn (by
      intro d2 d3 fs ls
      rcases ls with ⟨tk, tg, e1, e2, e3, m⟩ | ⟨_, e3, _⟩
      · obtain ⟨b, hb⟩ : ∃ b, F = [b] := by
          cases F with
          | nil => exact absurd rfl hFn
          | cons b F =>
            cases F with
            | nil => exact ⟨b, rfl⟩
            | cons c F => simp at e3
        subst hb
        have hbr := P.mem0 (c := b) (by rw [hF]; simp)
        have hbN := P.later hF (c := b) (by simp)
        rcases fs with ⟨tp, tn, f1, f2, _, m1⟩ | ⟨_, f3, _⟩
        · have e1' : textOf r.dom (l₂.headD 0) = some tk := by
            rw [← e1]
            refine (m1.others _ ?_ (by omega)).text.symm
            intro e
            have hnd := P.inv.linked.nodup p
            rw [he1, List.nodup_append, List.nodup_cons] at hnd
            cases l₂ with
            | nil =>
              rw [List.headD_nil] at e1
              rw [m1.inv.text_zero] at e1; cases e1
            | cons x l =>
              rcases List.eq_nil_or_concat' l₁ with rfl | ⟨ms, a, rfl⟩
              · simp at e
                have := P.inv.linked.range p x (by rw [he1]; simp)
                omega
              · simp at e
                exact hnd.2.2 a (by simp) x (by simp) e.symm
          have e2' : textOf r.dom b = some tg := by
            rw [← e2]
            refine (m1.others _ ?_ ?_).text.symm
            · omega
            · omega
          rcases s2 _ _ rfl with h | h | h | h
          · rw [h] at f2; cases f2
          · rw [h] at e2'; cases e2'
          · rw [← P.sib hpl, f1] at h; cases h
          · rw [← P.sib hnl, e1'] at h; cases h
        · simp at f3
      · exact absurd e3.symm hFn)
    rw [e]
    exact ⟨_, inv, upd_zero_nil hp0 _⟩

/-- Every allowed call keeps the invariant; it does not hang and its only possible undefined behaviour is the
negative length of a fragment that ends in a quote. -/
theorem runOp_inv {junk : Nat → Out Bool} (hj : Reads junk) {op : Op} (hi : Inv d) (ha : Allowed junk d op) :
    Post (EQuote (Op.html op)) Inv (runOp junk op d) := by
  obtain ⟨ch, h, h0⟩ := hi
  have up : ∀ {x : Out Dom} {E : Why → Prop}, Post NoUB Inv x → Post E Inv x := fun hx => hx.monoE (fun _ hf => hf.elim)
  have upv : ∀ {x : Out (Nat × Dom)} {E : Why → Prop}, Post NoUB (fun r => Inv r.2) x → Post E Inv (dropValue x) :=
    fun hx => Post.bindP (hx.monoE (fun _ hf => hf.elim)) (fun a ha => ha)
  cases op with
  | attr op =>
    refine up ((runAttr_post h op ha).mono ?_)
    rintro d' ⟨f, g, s⟩
    exact ⟨ch, s.domI h ha.2, h0⟩
  | addText n t a =>
    obtain ⟨t0, ht⟩ := ha
    obtain ⟨d', e, i, _⟩ := addText_spec h ht t a
    simp only [runOp]
    rw [e]; exact ⟨ch, i, h0⟩
  | setTag t n p =>
    have hn : typeOf d n = some .document := ha
    obtain ⟨nd, hnd, _⟩ := typeOf_some hn
    refine up ((setTag_post (tag := t) (can := p) (lt_of_some hnd)).eqn.mono (fun d' hr => ?_))
    exact ⟨ch, (setTag_inv h hn hr.1).1, h0⟩
  | setText n t =>
    refine up ((setText_spec h h0 ha.1 ha.2 t).mono (fun d' hr => ?_))
    exact ⟨_, hr.1, by rw [upd_ne (Ne.symm ha.1)]; exact dropBelow_nil h0⟩
  | removeNode n =>
    obtain ⟨p, l₁, l₂, hp0, he⟩ := HasParent.get h ha
    obtain ⟨d', e, i, _⟩ := dropAll h (p := p) (n := n) (by rw [he]; simp)
    simp only [runOp]
    rw [e]; exact ⟨_, i, dropTree_nil h0⟩
  | removeChildren n =>
    obtain ⟨d', e, i, _⟩ := dropKids h ha.1 ha.2
    simp only [runOp]
    rw [e]; exact ⟨_, i, dropBelow_nil h0⟩
  | appendDoc p doc =>
    exact upv ((appendDoc_spec h h0 ha.1 ha.2 doc).mono (fun r hr => ⟨_, hr.2.1.inv, upd_nil ha.1 h0 _⟩))
  | prependDoc p doc =>
    exact upv ((prependDoc_spec h h0 ha.1 ha.2 doc).mono (fun r hr => ⟨_, hr.2.1.inv, upd_nil ha.1 h0 _⟩))
  | replaceDoc n doc =>
    obtain ⟨p, l₁, l₂, hp0, he⟩ := HasParent.get h ha
    exact upv ((replaceDoc_spec h h0 hp0 he doc).mono (fun r hr => ⟨_, hr.2.1.inv, upd_nil hp0 h0 _⟩))
  | appendText p t =>
    refine upv ((appendText_spec h h0 ha.1 ha.2 t).mono ?_)
    rintro r (⟨tk, _, _, m⟩ | ⟨_, _, m⟩)
    · exact ⟨_, m.inv, h0⟩
    · exact ⟨_, m.inv, upd_nil ha.1 h0 _⟩
  | prependText p t =>
    refine upv ((prependText_spec h h0 ha.1 ha.2 t).mono ?_)
    rintro r (⟨tk, _, _, m⟩ | ⟨_, _, m⟩)
    · exact ⟨_, m.inv, h0⟩
    · exact ⟨_, m.inv, upd_nil ha.1 h0 _⟩
  | replaceText n t =>
    obtain ⟨p, l₁, l₂, hp0, he⟩ := HasParent.get h ha
    refine upv ((replaceText_spec h h0 hp0 he t).mono ?_)
    rintro r ⟨_, ⟨tk, _, m⟩ | ⟨_, tk, _, m⟩ | ⟨_, _, m⟩⟩
    · exact ⟨_, m.inv, dropTree_nil h0⟩
    · exact ⟨_, m.inv, dropTree_nil h0⟩
    · exact ⟨_, m.inv, upd_nil hp0 h0 _⟩
  | appendHTML p html =>
    obtain ⟨⟨hp0, hlt⟩, hne⟩ := ha
    refine Post.mono (P := Inv) ?_ (fun _ h => h)
    have hx : Post (EQuote html) (fun x => Inv x.2) (appendHTML junk p html d) := by
      cases hr : parseExtra junk html d with
      | ok r =>
        obtain ⟨c1, P, hleaf⟩ := (parseExtra_domI (E := EQuote html) h h0 (fun i => (Reads.post hj) i) (fun _ h => h)).elim hr
        by_cases ho : r.ok = true
        · obtain ⟨F, hF⟩ := P.head (hne r hr ho)
          rcases appendHTML_ok hr ho P (hleaf ho) hF hp0 hlt with ⟨tk, tn, d', _, _, e, m⟩ | ⟨_, d', e, m⟩
          · rw [e]; exact ⟨_, m.inv, upd_zero_nil hp0 _⟩
          · rw [e]; exact ⟨_, m.inv, upd_zero_nil hp0 _⟩
        · unfold appendHTML
          rw [hr]
          simp only [Out.bind_ok]
          rw [if_pos (by simpa using ho)]
          exact P.inv0
      | longjmp => unfold appendHTML; rw [hr]; trivial
      | ub w =>
        have := parseExtra_domI (E := EQuote html) h h0 (fun i => (Reads.post hj) i) (fun _ h => h) (s := html) (junk := junk)
        rw [hr] at this
        unfold appendHTML; rw [hr]; exact this
      | hang =>
        have := parseExtra_domI (E := EQuote html) h h0 (fun i => (Reads.post hj) i) (fun _ h => h) (s := html) (junk := junk)
        rw [hr] at this
        exact False.elim this
    exact hx.bindP (fun a ha => ha)
  | prependHTML p html =>
    obtain ⟨⟨hp0, hlt⟩, hne⟩ := ha
    have hx : Post (EQuote html) (fun x => Inv x.2) (prependHTML junk p html d) := by
      cases hr : parseExtra junk html d with
      | ok r =>
        obtain ⟨c1, P, hleaf⟩ := (parseExtra_domI (E := EQuote html) h h0 (fun i => (Reads.post hj) i) (fun _ h => h)).elim hr
        by_cases ho : r.ok = true
        · obtain ⟨F, hF⟩ := P.head (hne r hr ho)
          rcases prependHTML_ok hr ho P (hleaf ho) hF hp0 hlt with ⟨tk, tn, d', _, _, e, m⟩ | ⟨_, d', e, m⟩
          · rw [e]; exact ⟨_, m.inv, upd_zero_nil hp0 _⟩
          · rw [e]; exact ⟨_, m.inv, upd_zero_nil hp0 _⟩
        · unfold prependHTML
          rw [hr]
          simp only [Out.bind_ok]
          rw [if_pos (by simpa using ho)]
          exact P.inv0
      | longjmp => unfold prependHTML; rw [hr]; trivial
      | ub w =>
        have := parseExtra_domI (E := EQuote html) h h0 (fun i => (Reads.post hj) i) (fun _ h => h) (s := html) (junk := junk)
        rw [hr] at this
        unfold prependHTML; rw [hr]; exact this
      | hang =>
        have := parseExtra_domI (E := EQuote html) h h0 (fun i => (Reads.post hj) i) (fun _ h => h) (s := html) (junk := junk)
        rw [hr] at this
        exact False.elim this
    exact hx.bindP (fun a ha => ha)
  | replaceHTML n html =>
    obtain ⟨hp, hne, hs⟩ := ha
    have hx : Post (EQuote html) (fun x => Inv x.2) (replaceWithHTML junk n html d) := by
      cases hr : parseExtra junk html d with
      | ok r =>
        obtain ⟨c1, P, hleaf⟩ := (parseExtra_domI (E := EQuote html) h h0 (fun i => (Reads.post hj) i) (fun _ h => h)).elim hr
        by_cases ho : r.ok = true
        · obtain ⟨F, hF⟩ := P.head (hne r hr ho)
          exact (replaceHTML_inv h hp hs hr ho P (hleaf ho) hF).monoE (fun _ hf => hf.elim)
        · unfold replaceWithHTML
          rw [hr]
          simp only [Out.bind_ok]
          rw [if_pos (by simpa using ho)]
          exact P.inv0
      | longjmp => unfold replaceWithHTML; rw [hr]; trivial
      | ub w =>
        have := parseExtra_domI (E := EQuote html) h h0 (fun i => (Reads.post hj) i) (fun _ h => h) (s := html) (junk := junk)
        rw [hr] at this
        unfold replaceWithHTML; rw [hr]; exact this
      | hang =>
        have := parseExtra_domI (E := EQuote html) h h0 (fun i => (Reads.post hj) i) (fun _ h => h) (s := html) (junk := junk)
        rw [hr] at this
        exact False.elim this
    exact hx.bindP (fun a ha => ha)

theorem Reachable.inv (h : Reachable d) : Inv d := by
  induction h with
  | parsed h => exact createDom_domI h
  | edited hj _ ha hr ih => exact (runOp_inv hj ih ha).elim hr
  | duplicated _ hr ih =>
    obtain ⟨ch, h1, h0⟩ := ih
    obtain ⟨tm, bm, km, vm, e, h2⟩ := duplicate_inv h1
    rw [e] at hr; cases hr
    exact ⟨ch, h2, h0⟩

end
end Flo
