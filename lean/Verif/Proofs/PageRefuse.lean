import Verif.Spec.PageRefuse
import Verif.Props.RefFrag
import Verif.Props.PageValue
/-!
# What a refused string leaves behind (C106)
-/
namespace Flo
open Spec

theorem nodesOf_elem (tag : Str) (as : List AttrRead) (b : Bool) (ts : List Token) :
    nodesOf (.start tag as b :: ts) = nodesOf ts + 1 := rfl

theorem runEvs_left {startLen limit : Nat} (hl : limit + startLen = 256) {d : Dom} : ∀ (evs : List Ev) (b : BState) (n : Nat)
    (us : List (Str × Bool)), b.stack.length = n + startLen → Used d us b.dom →
    Ok (fun r => Used d (us ++ tokenForms (readUntil limit n (evs.map tokOf))) r.dom ∧
      r.dom.nodes.length = b.dom.nodes.length + nodesOf (readUntil limit n (evs.map tokOf))) (runEvs startLen evs b) := by
  intro evs
  induction evs with
  | nil => intro b n us _ h; exact Ok.ok ⟨by simpa [readUntil, tokenForms] using h, rfl⟩
  | cons e es ih =>
    intro b n us hs h
    have hup : ∀ id (d1 : Dom), Delta b.dom d1 1 0 → (parserUpdateReferences id b.prev b.stack d1).nodes.length = b.dom.nodes.length + 1 := by
      intro id d1 h1
      obtain ⟨m, h2, _⟩ := parserUpdate_count id b.prev b.stack d1
      have e1 := h1.1; have e2 := h2.1
      omega
    unfold runEvs
    cases e with
    | text raw =>
      refine Ok.bind (P := fun x => ∃ b', x = .inl b' ∧ b'.stack = b.stack ∧ Used d us b'.dom ∧ b'.dom.nodes.length = b.dom.nodes.length + 1) ?_ ?_
      · unfold runEv
        intro x hx
        obtain ⟨⟨id, d1⟩, h1, h2⟩ := Out.bind_eq_ok.1 hx
        cases h2
        exact ⟨_, rfl, rfl, (h.same (parseText_tags raw b.dom _ h1)).same (parserUpdate_tags _ _ _ _), hup _ _ (parseText_count raw b.dom _ h1).2⟩
      · rintro x ⟨b', rfl, e, hb, hn⟩
        refine (ih b' n us (by rw [e, hs]) hb).mono fun r hr => ⟨hr.1, ?_⟩
        rw [hr.2, hn]
        show _ = b.dom.nodes.length + (nodesOf _ + 1)
        omega
    | close =>
      refine Ok.bind (P := fun x => ∃ b', x = .inl b' ∧ b'.stack.length = n - 1 + startLen ∧ b'.dom = b.dom) ?_ ?_
      · unfold runEv
        cases hst : b.stack with
        | nil => rw [hst] at hs; simp at hs; exact Ok.ok ⟨_, rfl, by rw [hst]; simp; omega, rfl⟩
        | cons x t =>
          obtain ⟨id, tg⟩ := x
          rw [hst] at hs
          simp at hs
          dsimp only
          split
          · rename_i hc
            exact Ok.ok ⟨_, rfl, by simp at hc ⊢; omega, rfl⟩
          · rename_i hc
            exact Ok.ok ⟨_, rfl, by rw [hst]; simp at hc ⊢; omega, rfl⟩
      · rintro x ⟨b', rfl, e, hb⟩
        have := ih b' (n - 1) us e (by rw [hb]; exact h)
        rw [hb] at this
        exact this
    | elem tag can as =>
      have hel : Ok (fun r => Used d (us ++ [(tag, can)]) (parserUpdateReferences r.1 b.prev b.stack r.2) ∧
          (parserUpdateReferences r.1 b.prev b.stack r.2).nodes.length = b.dom.nodes.length + 1) (buildElem tag can as b.dom) := by
        intro r hr
        exact ⟨(h.append (buildElem_used tag can as h.1 _ hr)).same (parserUpdate_tags _ _ _ _), hup _ _ (buildElem_count tag can as b.dom _ hr).2⟩
      have happ : ∀ (tag : Str) (as : List AttrRead) (c : Bool) (ts : List Token), us ++ tokenForms (.start tag as c :: ts) =
          us ++ [(tag, c)] ++ tokenForms ts := by intros; simp [tokenForms]
      cases can with
      | false =>
        refine Ok.bind (P := fun x => ∃ b', x = .inl b' ∧ b'.stack = b.stack ∧ Used d (us ++ [(tag, false)]) b'.dom ∧
          b'.dom.nodes.length = b.dom.nodes.length + 1) ?_ ?_
        · unfold runEv
          refine hel.bind fun ⟨id, d1⟩ h1 => Ok.ok ⟨_, rfl, rfl, h1.1, h1.2⟩
        · rintro x ⟨b', rfl, e, hb, hn⟩
          refine (ih b' n _ (by rw [e, hs]) hb).mono fun r hr => ⟨?_, ?_⟩
          · show Used d (us ++ tokenForms (.start tag (as.map attrRead) false :: readUntil limit n (es.map tokOf))) r.dom
            rw [happ]; exact hr.1
          · rw [hr.2, hn]
            show _ = b.dom.nodes.length + (nodesOf _ + 1)
            omega
      | true =>
        by_cases hd : limit ≤ n
        · refine Ok.bind (P := fun x => ∃ d', x = .inr d' ∧ Used d (us ++ [(tag, true)]) d' ∧ d'.nodes.length = b.dom.nodes.length + 1) ?_ ?_
          · unfold runEv
            refine hel.bind fun ⟨id, d1⟩ h1 => ?_
            dsimp only at h1 ⊢
            rw [if_pos rfl, if_pos (by show b.stack.length ≥ 256; omega)]
            exact Ok.ok ⟨_, rfl, h1.1, h1.2⟩
          · rintro x ⟨d', rfl, h1, h2⟩
            refine Ok.ok ?_
            simp only [List.map_cons, tokOf, readUntil, if_pos hd]
            rw [happ]
            exact ⟨by simpa [tokenForms] using h1, h2⟩
        · refine Ok.bind (P := fun x => ∃ b' id, x = .inl b' ∧ b'.stack = (id, tag) :: b.stack ∧ Used d (us ++ [(tag, true)]) b'.dom ∧
            b'.dom.nodes.length = b.dom.nodes.length + 1) ?_ ?_
          · unfold runEv
            refine hel.bind fun ⟨id, d1⟩ h1 => ?_
            dsimp only at h1 ⊢
            rw [if_pos rfl, if_neg (by show ¬ b.stack.length ≥ 256; omega)]
            exact Ok.ok ⟨_, _, rfl, rfl, h1.1, h1.2⟩
          · rintro x ⟨b', id, rfl, e, hb, hn⟩
            refine (ih b' (n + 1) _ (by rw [e]; simp; omega) hb).mono fun r hr => ?_
            simp only [List.map_cons, tokOf, readUntil, if_neg hd]
            rw [happ]
            refine ⟨hr.1, ?_⟩
            rw [hr.2, hn, nodesOf_elem]
            omega

/-- What remains of a refused string. -/
theorem refused_left {junk : Nat → Out Bool} {answer : Nat → Bool} (hj : ∀ i, junk i = .ok (answer i)) {d d1 : Dom} (h : Reachable d)
    {html : Str} (hp : parseExtra junk html d = .ok ⟨false, d1⟩) :
    Used d (tokenForms (readUntil 256 0 (fragTokens answer html).1)) d1 ∧
      d1.nodes.length = d.nodes.length + nodesOf (readUntil 256 0 (fragTokens answer html).1) := by
  obtain ⟨hi, h0⟩ := reach_domI h
  have hu := Used.nil (d := d) hi.names.tag
  rcases fragTokens_lex hj html with ⟨_, evs, h2, h3⟩ | ⟨_, evs, h2, h3⟩
  · have hn := runEvs_left (startLen := 0) (limit := 256) rfl evs ⟨d, [], 0⟩ 0 [] rfl hu
    rw [parseExtra_lex h2] at hp
    have := hn _ hp
    rw [← h3, List.nil_append] at this
    exact this
  · have hn := runEvs_left (startLen := 0) (limit := 256) rfl evs ⟨d, [], 0⟩ 0 [] rfl hu
    obtain ⟨X, hX, hq⟩ := parseLoop_stuck (bt := []) (Or.inl rfl) (baseIs_frag junk html) h2
      (st := { idx := skipSpace html 0, dom := d, stack := [], prev := errorID }) rfl rfl
    have hq : parseExtra junk html d =
      (runEvs 0 evs ⟨d, [], 0⟩ >>= fun r => if r.ok then X r.dom else .ok r) := hq
    rw [hp] at hq
    obtain ⟨r, e1, e2⟩ := Out.bind_eq_ok.1 hq.symm
    have := hn _ e1
    split at e2
    · exact absurd e2 (hX _ _)
    · cases e2
      rw [← h3, List.nil_append] at this
      exact this

end Flo
