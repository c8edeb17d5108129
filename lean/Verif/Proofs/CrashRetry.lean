import Verif.Proofs.CrashAppend
/-!
# Calling again after a failure (C127)
-/
namespace Flo.Crash
open Spec CM

theorem whole_of {d : Dom} (h : NamesOK d) : WholeNames d :=
  ⟨by have := h.tag.len; simpa using this, h.bool.len, h.key.len, h.val.len⟩

/-- A name that was inserted is found when it is inserted again. -/
theorem insert_again {m : AutoMap} {reg : List Str} (h : MapOK m reg) {s : Str} {r : Inserted} (hr : m.insert s = .ok r) :
    r.map.insert s = .ok { wasInserted := false, entryIndex := r.entryIndex, map := r.map } := by
  obtain ⟨h1, h2, h3, _⟩ := h.insert_ok hr
  have hc : r.map.contains s = r.entryIndex := (h2.iff s r.entryIndex h1).2 h3
  have hi := h2.insert s
  cases e : r.map.insert s with
  | ok r2 =>
    rw [e] at hi
    obtain ⟨g1, g2⟩ := hi
    cases hw : r2.wasInserted with
    | true =>
      rw [hw, if_pos rfl] at g2
      exact absurd (hc.symm.trans g2.1) h1
    | false =>
      rw [hw, if_neg (by decide)] at g2
      obtain ⟨a, b, _⟩ := g2
      obtain ⟨w, i, mp⟩ := r2
      simp only at hw a b
      rw [hw, b, ← a, hc]
  | longjmp => rw [e] at hi; exact absurd (hc.symm.trans hi.1) h1
  | ub w => rw [e] at hi; exact hi.elim
  | hang => rw [e] at hi; exact hi.elim

theorem internBool_fail {s : Str} {k : Nat} {d x : Dom} (hN : d.boolReg.length = d.boolMap.identity + 1) (e : internBoolC s k d = .fail x) :
    x = d ∨ ¬ WholeNames x := by
  unfold internBoolC at e
  rw [bind_run] at e
  simp only [CM.ask] at e
  cases hr : d.boolMap.insert s with
  | ok r =>
    rw [hr] at e
    dsimp only at e
    cases hw : r.wasInserted with
    | false => rw [hw, if_neg (by decide)] at e; cases e
    | true =>
      rw [hw, if_pos rfl] at e
      match k, e with
      | 0, e => left; cases e; rfl
      | 1, e =>
        right
        cases e
        intro h
        have h := h.bool
        have hid : r.map.identity = d.boolMap.identity + 1 := by
          unfold AutoMap.insert at hr
          split at hr
          · cases hr; cases hw
          · split at hr
            · cases hr
            · cases hr; rfl
        dsimp only at h
        omega
      | k + 2, e => cases e
  | longjmp => rw [hr] at e; left; cases e; rfl
  | ub w => rw [hr] at e; cases e
  | hang => rw [hr] at e; cases e

theorem internBool_again {s : Str} {i : Nat} {d x : Dom} (hN : MapOK d.boolMap d.boolReg) (e : internBool s d = .ok (i, x)) :
    (∀ y : Dom, y.boolMap = x.boolMap → internBool s y = .ok (i, y)) ∧ x.boolReg.length = x.boolMap.identity + 1 := by
  unfold internBool at e ⊢
  rw [Out.bind_eq_ok] at e
  obtain ⟨r, hr, e⟩ := e
  cases e
  refine ⟨fun y hy => ?_, (hN.insert_ok hr).2.1.len⟩
  have hy : y.boolMap = r.map := hy
  rw [hy, insert_again hN hr, Out.bind_ok, if_neg (by simp), ← hy]

theorem internKey_fail {s : Str} {k : Nat} {d x : Dom} (hN : d.keyReg.length = d.keyMap.identity + 1) (e : internKeyC s k d = .fail x) :
    x = d ∨ ¬ WholeNames x := by
  unfold internKeyC at e
  rw [bind_run] at e
  simp only [CM.ask] at e
  cases hr : d.keyMap.insert s with
  | ok r =>
    rw [hr] at e
    dsimp only at e
    cases hw : r.wasInserted with
    | false => rw [hw, if_neg (by decide)] at e; cases e
    | true =>
      rw [hw, if_pos rfl] at e
      match k, e with
      | 0, e => left; cases e; rfl
      | 1, e =>
        right
        cases e
        intro h
        have h := h.key
        have hid : r.map.identity = d.keyMap.identity + 1 := by
          unfold AutoMap.insert at hr
          split at hr
          · cases hr; cases hw
          · split at hr
            · cases hr
            · cases hr; rfl
        dsimp only at h
        omega
      | k + 2, e => cases e
  | longjmp => rw [hr] at e; left; cases e; rfl
  | ub w => rw [hr] at e; cases e
  | hang => rw [hr] at e; cases e

theorem internKey_again {s : Str} {i : Nat} {d x : Dom} (hN : MapOK d.keyMap d.keyReg) (e : internKey s d = .ok (i, x)) :
    (∀ y : Dom, y.keyMap = x.keyMap → internKey s y = .ok (i, y)) ∧ x.keyReg.length = x.keyMap.identity + 1 := by
  unfold internKey at e ⊢
  rw [Out.bind_eq_ok] at e
  obtain ⟨r, hr, e⟩ := e
  cases e
  refine ⟨fun y hy => ?_, (hN.insert_ok hr).2.1.len⟩
  have hy : y.keyMap = r.map := hy
  rw [hy, insert_again hN hr, Out.bind_ok, if_neg (by simp), ← hy]

theorem internVal_fail {s : Str} {k : Nat} {d x : Dom} (hN : d.valReg.length = d.valMap.identity + 1) (e : internValC s k d = .fail x) :
    x = d ∨ ¬ WholeNames x := by
  unfold internValC at e
  rw [bind_run] at e
  simp only [CM.ask] at e
  cases hr : d.valMap.insert s with
  | ok r =>
    rw [hr] at e
    dsimp only at e
    cases hw : r.wasInserted with
    | false => rw [hw, if_neg (by decide)] at e; cases e
    | true =>
      rw [hw, if_pos rfl] at e
      match k, e with
      | 0, e => left; cases e; rfl
      | 1, e =>
        right
        cases e
        intro h
        have h := h.val
        have hid : r.map.identity = d.valMap.identity + 1 := by
          unfold AutoMap.insert at hr
          split at hr
          · cases hr; cases hw
          · split at hr
            · cases hr
            · cases hr; rfl
        dsimp only at h
        omega
      | k + 2, e => cases e
  | longjmp => rw [hr] at e; left; cases e; rfl
  | ub w => rw [hr] at e; cases e
  | hang => rw [hr] at e; cases e

theorem internVal_again {s : Str} {i : Nat} {d x : Dom} (hN : MapOK d.valMap d.valReg) (e : internVal s d = .ok (i, x)) :
    (∀ y : Dom, y.valMap = x.valMap → internVal s y = .ok (i, y)) ∧ x.valReg.length = x.valMap.identity + 1 := by
  unfold internVal at e ⊢
  rw [Out.bind_eq_ok] at e
  obtain ⟨r, hr, e⟩ := e
  cases e
  refine ⟨fun y hy => ?_, (hN.insert_ok hr).2.1.len⟩
  have hy : y.valMap = r.map := hy
  rw [hy, insert_again hN hr, Out.bind_ok, if_neg (by simp), ← hy]

theorem addProperty_again {n k : Nat} {key v : Str} {d x : Dom} (hN : NamesOK d) (e : addPropertyC n key v k d = .fail x) (hw : WholeNames x) :
    addProperty n key v x = addProperty n key v d := by
  unfold addPropertyC at e
  rw [bind_run] at e
  cases h1 : internKeyC key k d with
  | fail y =>
    rw [h1] at e; cases e
    rcases internKey_fail hN.key.len h1 with rfl | h
    · rfl
    · exact absurd hw h
  | stop => rw [h1] at e; cases e
  | done i d1 j =>
    rw [h1] at e
    dsimp only at e
    obtain ⟨b, hb, hb2⟩ := (sim_internKey key d).done_ok h1
    obtain rfl : b = (i, d1) := hb2
    obtain ⟨ha, _⟩ := internKey_again hN.key hb
    have hv1 : d1.valMap = d.valMap ∧ d1.valReg = d.valReg := by
      unfold internKey at hb
      rw [Out.bind_eq_ok] at hb
      obtain ⟨r, _, hb⟩ := hb
      cases hb
      exact ⟨rfl, rfl⟩
    unfold addProperty
    rw [hb, Out.bind_ok]
    rw [bind_run] at e
    cases h2 : internValC v j d1 with
    | fail y =>
      rw [h2] at e; cases e
      rcases internVal_fail (by rw [hv1.1, hv1.2]; exact hN.val.len) h2 with rfl | h
      · rw [ha _ rfl, Out.bind_ok]
      · exact absurd hw h
    | stop => rw [h2] at e; cases e
    | done v' d2 j' =>
      rw [h2] at e
      obtain ⟨b, hb', hb2⟩ := (sim_internVal v d1).done_ok h2
      obtain rfl : b = (v', d2) := hb2
      obtain ⟨hav, _⟩ := internVal_again (by rw [hv1.1, hv1.2]; exact hN.val) hb'
      have hk2 : d2.keyMap = d1.keyMap := by
        unfold internVal at hb'
        rw [Out.bind_eq_ok] at hb'
        obtain ⟨r, _, hb'⟩ := hb'
        cases hb'
        rfl
      match j', e with
      | 0, e =>
        cases e
        rw [ha _ hk2]
        simp only [Out.bind_ok]
        rw [hb', hav _ rfl]
      | j' + 1, e => cases e

theorem addBool_again {n k : Nat} {b : Str} {d x : Dom} (hN : NamesOK d) (e : addBoolPropertyC n b k d = .fail x) (hw : WholeNames x) :
    addBoolProperty n b x = addBoolProperty n b d := by
  unfold addBoolPropertyC at e
  rw [bind_run] at e
  cases h1 : internBoolC b k d with
  | fail y =>
    rw [h1] at e; cases e
    rcases internBool_fail hN.bool.len h1 with rfl | h
    · rfl
    · exact absurd hw h
  | stop => rw [h1] at e; cases e
  | done i d1 j =>
    rw [h1] at e
    dsimp only at e
    obtain ⟨b', hb, hb2⟩ := (sim_internBool b d).done_ok h1
    obtain rfl : b' = (i, d1) := hb2
    obtain ⟨ha, _⟩ := internBool_again hN.bool hb
    unfold addBoolProperty
    match j, e with
    | 0, e =>
      cases e
      rw [hb, ha _ rfl]
    | j + 1, e => cases e

theorem setValue_again {n k : Nat} {key v : Str} {d x : Dom} (hN : NamesOK d) (e : setPropertyValueC n key v k d = .fail x) (hw : WholeNames x) : x = d := by
  unfold setPropertyValueC at e
  rw [bind_run] at e
  simp only [CM.read] at e
  split at e
  · cases e
  · rw [bind_run] at e
    simp only [CM.read] at e
    cases hg : getProperty n (d.keyMap.contains key) d with
    | none => rw [hg] at e; cases e
    | some i =>
      rw [hg] at e
      dsimp only at e
      rw [bind_run] at e
      cases h1 : internValC v k d with
      | fail y =>
        rw [h1] at e; cases e
        rcases internVal_fail hN.val.len h1 with rfl | h
        · rfl
        · exact absurd hw h
      | stop => rw [h1] at e; cases e
      | done i d1 j => rw [h1] at e; cases e

theorem addText_exact {n k : Nat} {t : Str} {a : Bool} {d x : Dom} (e : addTextToTextNodeC n t a k d = .fail x) : x = d :=
  (Tri.fails (P := fun y => y = d) (F := fun y => y = d) (m := addTextToTextNodeC n t a)
    ((Tri.ask fun _ h => h).bind fun _ => (Tri.ask fun _ h => h.1).bind fun _ =>
      Tri.push (Q := fun _ => True) (fun _ h => h.1.1) fun _ _ => trivial) rfl e)

theorem setTag_again {n k : Nat} {t : Str} {p : Bool} {d x : Dom} (hN : NamesOK d) (e : setTagC t n p k d = .fail x) (hw : WholeNames x) : x = d := by
  unfold setTagC at e
  rw [bind_run] at e
  simp only [CM.ask] at e
  have noFail : ∀ (j : Nat) (y : Dom) (i : Nat), (do
      let node ← ask fun d => d.node n
      write fun d => d.setNode n { node with payload := .tag i } : CM Unit) j y ≠ .fail x := by
    intro j y i e
    rw [bind_run] at e
    simp only [CM.ask] at e
    unfold Dom.node at e
    cases hn : y.nodes[n]? with
    | none => rw [hn] at e; cases e
    | some nd => rw [hn] at e; cases e
  cases hr : d.tagMap.insert t with
  | ok r =>
    rw [hr] at e
    dsimp only at e
    cases hi : r.wasInserted with
    | false =>
      rw [hi, if_neg (by decide)] at e
      exact absurd e (noFail k d r.entryIndex)
    | true =>
      rw [hi, if_pos rfl] at e
      match k, e with
      | 0, e => cases e; rfl
      | 1, e =>
        cases e
        have h := hw.tag
        have hl := (whole_of hN).tag
        have hid : r.map.identity = d.tagMap.identity + 1 := by
          unfold AutoMap.insert at hr
          split at hr
          · cases hr; cases hi
          · split at hr
            · cases hr
            · cases hr; rfl
        dsimp only at h
        omega
      | k + 2, e => exact absurd e (noFail k _ r.entryIndex)
  | longjmp => rw [hr] at e; cases e; rfl
  | ub w => rw [hr] at e; cases e
  | hang => rw [hr] at e; cases e

end Flo.Crash
