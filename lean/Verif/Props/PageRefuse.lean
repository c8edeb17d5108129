import Verif.Proofs.PageRefuse
import Verif.Props.MemSession
/-!
# Sessions in which HTML strings are refused (C106)

An HTML string that opens an element within 256 others is refused.  On the page nothing happens, but the numbers of the nodes that
were made before are used up and the names keep their forms.
-/
namespace Flo
open Spec

theorem not_refused {answer : Nat → Bool} {pg : Page} {op : Op} (h : pg.Allows answer op) : ¬ op.Refused answer := by
  rintro ⟨html, h1, h2⟩
  cases op <;> simp only [Op.fragment, Option.some.injEq, reduceCtorEq] at h1 <;> subst h1 <;> simp only [Page.Allows] at h
  · obtain ⟨_, F, hF, _⟩ := h; rw [h2] at hF; cases hF
  · obtain ⟨_, F, hF, _⟩ := h; rw [h2] at hF; cases hF
  · obtain ⟨_, _, ⟨F, hF, _⟩, _⟩ := h; rw [h2] at hF; cases hF

theorem call_allowed {answer : Nat → Bool} {pg : Page} {op : Op} (h : ¬ op.Refused answer) : pg.call answer op = pg.step answer op := by
  unfold Page.call
  split
  · rename_i html he
    split
    · rename_i hn; exact absurd ⟨html, he, hn⟩ h
    · rfl
  · rfl

theorem call_refused {answer : Nat → Bool} {pg : Page} {op : Op} {html : Str} (h : op.fragment = some html)
    (hn : fragOutcome answer html = .null) : pg.call answer op = pg.refuse answer html := by
  unfold Page.call
  rw [h]; dsimp only; rw [hn]

/-- One call, a refused string included: it returns normally, what it returns is what the page says, and the DOM is then the page. -/
theorem C106_call (d : Dom) (h : Reachable d) (pg : Page) (hs : Shows d pg) (answer : Nat → Bool) (op : Op) (ha : pg.Permits answer op)
    (hr : Room d op.cost) :
    ∃ v d', callOp (fun i => .ok (answer i)) op d = .ok (v, d') ∧ Reachable d' ∧ Shows d' (pg.call answer op) ∧
      op.Returns answer pg (pg.call answer op) v ∧ ∀ k, Room d (op.cost + k) → Room d' k := by
  rcases ha with ha | ⟨hf, ha⟩
  · have hn := not_refused ha
    rw [call_allowed hn]
    obtain ⟨v, d', h1, h2, h3, h4, h5⟩ := C104_value d h pg hs answer op ha hr
    exact ⟨v, d', h1, h2, h3, ⟨fun x => absurd x hn, fun _ => h4⟩, h5⟩
  · obtain ⟨html, h1, h2⟩ := id hf
    rw [call_refused h1 h2]
    have hj : ∀ i, (fun i => Out.ok (answer i)) i = .ok (answer i) := fun _ => rfl
    have hjr : Reads fun i => Out.ok (answer i) := fun i => ⟨_, rfl⟩
    have hl : Room d html.length := by
      cases op <;> simp only [Op.fragment, Option.some.injEq, reduceCtorEq] at h1 <;> subst h1 <;> exact hr
    have hp := fragRef hj h hl
    rw [h2] at hp
    obtain ⟨d1, c1, hp, P⟩ := hp
    obtain ⟨hi, h0⟩ := reach_domI h
    obtain ⟨u, hlen⟩ := refused_left hj h hp
    have hne : NonEmptyFrag (fun i => .ok (answer i)) html d := fun r e hok => by rw [hp] at e; cases e; cases hok
    have hrs : ∀ n, ReplaceSafe (fun i => .ok (answer i)) n html d := fun n r e hok => by rw [hp] at e; cases e; cases hok
    have hc : callOp (fun i => .ok (answer i)) op d = .ok (0, d1) := by
      cases op <;> simp only [Op.fragment, Option.some.injEq, reduceCtorEq] at h1 <;> subst h1
      · show appendHTML _ _ _ d = _; unfold appendHTML; rw [hp]; rfl
      · show prependHTML _ _ _ d = _; unfold prependHTML; rw [hp]; rfl
      · show replaceWithHTML _ _ _ d = _; unfold replaceWithHTML; rw [hp]; rfl
    have hal : Allowed (fun i => .ok (answer i)) d op := by
      cases op <;> simp only [Op.fragment, Option.some.injEq, reduceCtorEq] at h1 <;> subst h1
      · obtain ⟨l, hm⟩ := ha; exact ⟨(hs.entry hi hm).2, hne⟩
      · obtain ⟨l, hm⟩ := ha; exact ⟨(hs.entry hi hm).2, hne⟩
      · obtain ⟨x, hx⟩ := ha
        obtain ⟨q, hq, _⟩ := hs.siblings_of hx
        exact ⟨⟨q, by rw [hq]; simp⟩, hne, hrs _⟩
    have hrun : runOp (fun i => .ok (answer i)) op d = .ok d1 := by rw [runOp_call, hc]; rfl
    refine ⟨0, d1, hc, .edited hjr h hal hrun, ⟨?_, step_forms hs u.2, hs.root, ?_⟩, ⟨fun _ => rfl, fun x => absurd hf x⟩,
      fun k hk => (runOp_room hjr op hk).elim hrun⟩
    · rw [hlen, hs.next]; rfl
    · refine shown_keep (d := d) (d' := d1) (G := fun q => q ≠ 0 ∧ q < d.nodes.length) (fun q hq => ⟨P.old q hq.2, ?_, fun k hk => ?_⟩) _ hs.tree ?_
      · rw [P.inv.linked.kids_eq hq.1]; exact P.frame q hq.1 hq.2
      · exact (by have := hi.linked.range q k hk; omega)
      · show pg.root.id ≠ 0 ∧ pg.root.id < _
        have := hi.linked.two
        rw [Shows.id hs]; exact ⟨by decide, (by show 1 < _; omega)⟩

theorem callEach_calls (ops : List (Op × (Nat → Bool))) : ∀ (d : Dom) (_ : Reachable d) (pg : Page) (_ : Shows d pg)
    (_ : pg.PermitsAll ops) (_ : Room d (ops.map fun o => o.1.cost).sum),
    ∃ vs d', callEach ops d = .ok (vs, d') ∧ Reachable d' ∧ Shows d' (pg.calls ops) ∧ ReturnsAll pg ops vs := by
  induction ops with
  | nil => intro d h pg hs _ hr; exact ⟨[], d, rfl, h, hs, rfl⟩
  | cons o ops ih =>
    intro d h pg hs ha hr
    rw [List.map_cons, List.sum_cons] at hr
    obtain ⟨v, d1, e1, h1, s1, g1, r1⟩ := C106_call d h pg hs o.2 o.1 ha.1 (hr.le (by omega))
    obtain ⟨vs, d2, e2, h2, s2, g2⟩ := ih d1 h1 _ s1 ha.2 (r1 _ hr)
    exact ⟨v :: vs, d2, by rw [callEach, e1]; show (callEach ops d1 >>= _) = _; rw [e2]; rfl, h2, s2, v, vs, rfl, g1, g2⟩

/-- A whole session in which strings may be refused. -/
theorem C106_session (s : Str) (ts : List Tree) (ho : outcome s = .document ts) (ops : List (Op × (Nat → Bool)))
    (ha : (Page.load s).PermitsAll ops) (hlen : s.length + (ops.map fun o => o.1.cost).sum ≤ 65533) :
    ∃ d vs d', createDom s = .ok (some d) ∧ callEach ops d = .ok (vs, d') ∧ Reachable d' ∧ Shows d' ((Page.load s).calls ops) ∧
      printHTML d' = .ok ((Page.load s).calls ops).print ∧ ReturnsAll (Page.load s) ops vs := by
  have hc := C93_every_input s (by omega)
  rw [ho] at hc
  obtain ⟨d, hd, _⟩ := hc
  obtain ⟨vs, d', e, h', s', g⟩ := callEach_calls ops d (.parsed hd) _ (C95_load s d hd) ha ((createDom_room hlen).elim hd d rfl)
  exact ⟨d, vs, d', hd, e, h', s', (C95_print d' h' _ s').1, g⟩

theorem memEach_calls (U : Int → Prop) (ops : List (MOp × (Nat → Bool))) : ∀ (M : MDom) (a : Arena) (d : Dom) (_ : Held U M a d)
    (_ : Reachable d) (pg : Page) (_ : Shows d pg) (_ : ∀ o ∈ ops, o.1.Given U) (_ : pg.PermitsAll (readAll a.mem ops))
    (_ : Room d ((readAll a.mem ops).map fun o => o.1.cost).sum),
    memEach ops M a = .longjmp ∨ ∃ vs M' a' d', memEach ops M a = .ok (vs, M', a') ∧
      Held U M' a' d' ∧ Reachable d' ∧ Shows d' (pg.calls (readAll a.mem ops)) ∧ ReturnsAll pg (readAll a.mem ops) vs ∧
      a.beg ≤ a'.beg ∧ a'.stop = a.stop ∧ ∀ y, U y → a'.mem y = a.mem y := by
  induction ops with
  | nil => intro M a d h hR pg hs _ _ _; exact Or.inr ⟨[], M, a, d, rfl, h, hR, hs, rfl, le_refl _, rfl, fun _ _ => rfl⟩
  | cons o ops ih =>
    intro M a d h hR pg hs hg ha hr
    have hro : readAll a.mem (o :: ops) = (o.1.read a.mem, o.2) :: readAll a.mem ops := rfl
    rw [hro] at ha hr ⊢
    rw [List.map_cons, List.sum_cons] at hr
    obtain ⟨v, d1, e1, h1, s1, g1, r1⟩ := C106_call d hR pg hs o.2 (o.1.read a.mem) ha.1 (hr.le (by dsimp only; omega))
    have hj : Reads fun i => Out.ok (o.2 i) := fun i => ⟨_, rfl⟩
    rcases h.call (hg o (by simp)) hj e1 with ⟨x, _⟩ | ⟨M1, a1, x, hh, b1, b2, _, b3⟩
    · left; rw [memEach, x]; rfl
    · have hsame : readAll a1.mem ops = readAll a.mem ops :=
        List.map_congr_left fun o' ho' => by rw [read_congr (hg o' (by simp [ho'])) b3]
      have := ih M1 a1 d1 hh h1 _ s1 (fun o' ho' => hg o' (by simp [ho'])) (by rw [hsame]; exact ha.2) (by rw [hsame]; exact r1 _ hr)
      rw [hsame] at this
      rcases this with y | ⟨vs, M2, a2, d2, y, hh2, h2, s2, g2, c1, c2, c3⟩
      · left; rw [memEach, x]; show (memEach ops M1 a1 >>= _) = _; rw [y]; rfl
      · right
        refine ⟨v :: vs, M2, a2, d2, ?_, hh2, h2, s2, ⟨v, vs, rfl, g1, g2⟩, le_trans b1 c1, c2.trans b2, fun w hw => (c3 w hw).trans (b3 w hw)⟩
        rw [memEach, x]; show (memEach ops M1 a1 >>= _) = _; rw [y]; rfl

/-- C105 for sessions in which strings may be refused. -/
theorem C106_memory (a : Arena) (ha : ArenaOK a) (h0 : 0 < a.beg) (src : MStr) (s : Str) (hs : SourceAt a src s) (ts : List Tree)
    (ho : outcome s = .document ts) (ops : List (MOp × (Nat → Bool))) (hg : ∀ o ∈ ops, o.1.Given fun y => y < a.beg ∨ a.stop ≤ y)
    (hal : (Page.load s).PermitsAll (readAll a.mem ops))
    (hlen : s.length + ((readAll a.mem ops).map fun o => o.1.cost).sum ≤ 65533) :
    memSession src ops a = .longjmp ∨ ∃ vs M' a' d', memSession src ops a = .ok (some (vs, M', a')) ∧ Reachable d' ∧
      (∀ mem', SameButFree a' a'.mem mem' → InMemory mem' M' d') ∧ Shows d' ((Page.load s).calls (readAll a.mem ops)) ∧
      printHTML d' = .ok ((Page.load s).calls (readAll a.mem ops)).print ∧ ReturnsAll (Page.load s) (readAll a.mem ops) vs ∧
      a.beg ≤ a'.beg ∧ a'.beg ≤ a'.stop ∧ a'.stop = a.stop ∧ ∀ y, y < a.beg ∨ a.stop ≤ y → a'.mem y = a.mem y := by
  have hc := C93_every_input s (by omega)
  rw [ho] at hc
  obtain ⟨d, hd, _⟩ := hc
  rcases C83_parse_in_memory a ha h0 src s hs _ hd with x | ⟨q, a1, x, b1, _, b3, b4, hq, hM⟩
  · left; unfold memSession; rw [x]; rfl
  · cases q with
    | none => exact absurd (hq.1 rfl) (by simp)
    | some M =>
      have hh : Held (fun y => y < a.beg ∨ a.stop ≤ y) M a1 d := (MemHistory.created ha h0 hs hd x).held
      have hsame : readAll a1.mem ops = readAll a.mem ops :=
        List.map_congr_left fun o' ho' => by rw [read_congr (hg o' ho') b4]
      have := memEach_calls _ ops M a1 d hh (.parsed hd) _ (C95_load s d hd) hg (by rw [hsame]; exact hal)
        (by rw [hsame]; exact (createDom_room hlen).elim hd d rfl)
      rw [hsame] at this
      rcases this with y | ⟨vs, M2, a2, d2, y, hh2, h2, s2, g2, c1, c2, c3⟩
      · left; unfold memSession; rw [x]; show (memEach ops M a1 >>= _) = _; rw [y]; rfl
      · right
        refine ⟨vs, M2, a2, d2, ?_, h2, ?_, s2, (C95_print d2 h2 _ s2).1, g2, le_trans b1 c1, ?_, c2.trans b3, fun w hw => (c3 w hw).trans (b4 w hw)⟩
        · unfold memSession; rw [x]; show (memEach ops M a1 >>= _) = _; rw [y]; rfl
        · intro mem' hm
          obtain ⟨V, own, z, hr, _⟩ := hh2
          exact (hr.rewrite hm).inMemory
        · obtain ⟨V, own, z, hr, _⟩ := hh2
          exact hr.top

/-! ## A concrete session -/

/-- 257 elements within each other. -/
def deepHTML : Str := (List.replicate 257 b!"<p>").flatten

theorem deepHTML_refused : fragOutcome (fun _ => true) deepHTML = .null := by
  have : nestsBeyond 256 0 (fragTokens (fun _ => true) deepHTML).1 = true := by decide +kernel
  unfold fragOutcome
  rw [if_pos this]

/-- A refused string, after which the name it used has a form and the next node a larger number. -/
def deepOps : List (Op × (Nat → Bool)) :=
  [(.appendHTML 2 deepHTML, fun _ => true), (.appendText 1 b!"t", fun _ => true), (.appendDoc 1 ⟨b!"p", false, [], []⟩, fun _ => true)]

theorem deep_left : nodesOf (readUntil 256 0 (fragTokens (fun _ => true) deepHTML).1) = 257 ∧
    firstForm (tokenForms (readUntil 256 0 (fragTokens (fun _ => true) deepHTML).1)) b!"p" = some true := by decide +kernel

example : (Page.load b!"<i>a</i>").PermitsAll deepOps := by
  have e1 : ((Page.load b!"<i>a</i>").call (fun _ => true) (.appendHTML 2 deepHTML)).root = (Page.load b!"<i>a</i>").root := by
    rw [call_refused (html := deepHTML) rfl deepHTML_refused]; rfl
  refine ⟨Or.inr ⟨⟨deepHTML, rfl, deepHTML_refused⟩, .elem b!"i" [] [], .tail _ (.head _)⟩, Or.inl ⟨.root, ?_, rfl⟩, Or.inl ⟨.root, ?_, rfl⟩, trivial⟩
  · rw [e1]; exact .head _
  · rw [call_allowed (by rintro ⟨_, h, _⟩; cases h)]
    unfold Page.step
    dsimp only
    rw [e1]
    exact .head _

example : (b!"<i>a</i>").length + (deepOps.map fun o => o.1.cost).sum ≤ 65533 := by decide +kernel

/-- The text is node 261, and the element is printed with the content the refused string had given to its name. -/
example : ((Page.load b!"<i>a</i>").calls deepOps).next = 263 ∧ ((Page.load b!"<i>a</i>").calls deepOps).print = b!"<i>a</i>t<p></p>" := by
  decide +kernel

end Flo
