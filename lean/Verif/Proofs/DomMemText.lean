import Verif.Proofs.DomMemSim
/-!
# The DOM in memory: texts and attributes
-/
namespace Flo
open Spec

/-! ## Text under construction -/

def ByteAt : ElemAt UInt8 := fun mem _ p _ c => mem p = c

theorem byteAt_movable : Movable 1 ByteAt := by
  constructor
  intro mem mem' own own' p p' i x h hf hm
  have := hm 0 (by omega) (by omega)
  rw [Int.add_zero, Int.add_zero] at this
  exact this.trans h

theorem kind_1 : Kind.OK ⟨1, 1⟩ := ⟨by decide, isAlign_one, by decide⟩

/-- Making room for `n` bytes. -/
structure RawRoom (lo : Int) (n : Int) (a : Arena) (s : Arr) (a' : Arena) (s' : Arr) : Prop where
  ok : ArrOK lo a' ⟨1, 1⟩ s'
  len : s'.len = s.len
  room : s.len + n ≤ s'.cap
  cap2 : s'.cap ≤ 2 * (s.len + n)
  one : ∀ b, s'.buf = some b → 1 ≤ s'.cap
  beg : a.beg ≤ a'.beg
  top : a'.beg ≤ a'.stop
  stop : a'.stop = a.stop
  blk : ∀ b, s'.buf = some b → ∀ x, b ≤ x → x < b + s'.cap → (∃ b0, s.buf = some b0 ∧ b0 ≤ x ∧ x < b0 + s.cap) ∨ (a.beg ≤ x ∧ x < a'.beg)
  mem : ∀ x, (∀ b, s'.buf = some b → x < b ∨ b + s'.cap ≤ x) → a'.mem x = a.mem x
  moved : ∀ b0, s.buf = some b0 → ∃ b, s'.buf = some b ∧ ∀ j, 0 ≤ j → j < s.len → a'.mem (b + j) = a.mem (b0 + j)
  ledger : a'.beg + 2 * s.cap ≤ a.beg + 2 * s'.cap

theorem rawReserve_room {lo : Int} {n : Nat} {a : Arena} {s : Arr} (h : ArrOK lo a ⟨1, 1⟩ s) (hc2 : s.cap ≤ 2 * s.len)
    (h2 : ∀ b, s.buf = some b → 1 ≤ s.cap) (hlo : lo ≤ a.beg) (htop : a.beg ≤ a.stop) :
    (rawReserve n s a = .longjmp ∧ s.cap < s.len + n ∧ a.stop < a.beg + 2 * (s.len + n)) ∨
    ∃ s' a', rawReserve n s a = .ok (s', a') ∧ RawRoom lo n a s a' s' := by
  have hl0 := h.len0
  have hlc := h.lenCap
  have hnone := h.none
  have hcap := h.cap
  have hbb := h.beg
  have hbs := h.stop
  have hbl := h.lo
  have hk := h.kind
  obtain ⟨buf, len, cap⟩ := s
  dsimp only at hl0 hlc hnone hcap hbb hbs hbl hc2 h2
  unfold rawReserve
  dsimp only
  by_cases hc : len + (n : Int) > cap
  · rw [if_pos hc]
    have hN : 0 ≤ (len + (n : Int)) * 2 := by omega
    have hcap0 : 0 ≤ cap := by omega
    rcases arenaAlloc_cases (size := 1) (align := 1) (count := (len + (n : Int)) * 2) (zero := false) (nof := false) (a := a) (by omega)
      isAlign_one hN with ⟨p, a', he, hA⟩ | ⟨hlt, hj⟩
    rotate_left
    · left
      rw [if_neg (by decide)] at hj
      refine ⟨?_, hc, by omega⟩
      cases buf with
      | none => dsimp only; rw [hj]; rfl
      | some b =>
        dsimp only
        split
        · rw [hj]; rfl
        · rw [hj]; rfl
    · right
      rw [he]
      have hbeg := hA.beg
      have hab := hA.above
      have hcl' := hA.close
      have hst := hA.stop
      have hfit := hA.fits (by omega)
      have hmem := hA.keeps rfl
      cases buf with
      | none =>
        have hcap := hnone rfl
        subst hcap
        refine ⟨⟨some p, len, (len + n) * 2⟩, a', rfl, ?_⟩
        constructor
        · constructor
          · exact hk
          · exact hl0
          · dsimp only; omega
          · intro e; cases e
          · intro b _; dsimp only; omega
          · intro b e; cases e; omega
          · intro b e; cases e; dsimp only; omega
          · intro b e; cases e; dsimp only; omega
          · intro b e; cases e; exact hA.aligned
        · rfl
        · dsimp only; omega
        · dsimp only; omega
        · intro b _; dsimp only; omega
        · omega
        · omega
        · exact hst
        · intro b e x h1 h2
          cases e
          dsimp only at h2
          right
          omega
        · intro x _; rw [hmem]
        · intro b0 e; cases e
        · dsimp only; omega
      | some b =>
        dsimp only
        have h1 := hbb b rfl
        have h2' := hbs b rfl
        rw [if_neg (by omega)]
        simp only [Out.bind_ok]
        refine ⟨⟨some p, len, (len + n) * 2⟩, { a' with mem := memCopy p b len a'.mem }, rfl, ?_⟩
        constructor
        · constructor
          · exact hk
          · exact hl0
          · dsimp only; omega
          · intro e; cases e
          · intro b _; dsimp only; omega
          · intro b' e; cases e; omega
          · intro b' e; cases e; dsimp only; omega
          · intro b' e; cases e; dsimp only; omega
          · intro b' e; cases e; exact hA.aligned
        · rfl
        · dsimp only; omega
        · dsimp only; omega
        · intro b _; have := h2 _ rfl; dsimp only; omega
        · dsimp only; omega
        · dsimp only; omega
        · exact hst
        · intro b e x h1 h2
          cases e
          dsimp only at h2 ⊢
          right
          omega
        · intro x hx
          have := hx p rfl
          dsimp only at this ⊢
          unfold memCopy
          rw [if_neg (by omega), hmem]
        · intro b0 e
          cases e
          refine ⟨p, rfl, fun j h0 h1 => ?_⟩
          dsimp only at h1 ⊢
          unfold memCopy
          rw [if_pos (by omega), hmem]
          congr 1; omega
        · dsimp only; omega
  · rw [if_neg hc]
    right
    refine ⟨⟨buf, len, cap⟩, a, rfl, h, rfl, (by dsimp only; omega), (by dsimp only; omega), h2, le_refl _, htop, rfl, ?_, fun _ _ => rfl, ?_, le_refl _⟩
    · intro b e x h1 h2; exact Or.inl ⟨b, e, h1, h2⟩
    · intro b0 e; exact ⟨b0, e, fun _ _ _ => rfl⟩

theorem rawAdd_rep {own : Int → Owner} {o : Owner} {lo : Int} {a : Arena} {s : Arr} {l e : List UInt8}
    (h : ArrRep own o ⟨1, 1⟩ ByteAt lo a s l) (hlo : lo ≤ a.beg) (htop : a.beg ≤ a.stop) (hfree : ∀ y, a.beg ≤ y → y < a.stop → own y = .free) :
    (rawAdd e s a = .longjmp ∧ s.cap < s.len + e.length ∧ a.stop < a.beg + 2 * (s.len + e.length)) ∨
    ∃ s' a' own', rawAdd e s a = .ok (s', a') ∧ ArrRep own' o ⟨1, 1⟩ ByteAt lo a' s' (l ++ e) ∧
      Around (· = o) own a own' a' ∧ a'.beg + 2 * s.cap ≤ a.beg + 2 * s'.cap := by
  unfold rawAdd
  rcases rawReserve_room (n := e.length) h.ok h.cap2 h.one hlo htop with ⟨hj, hr⟩ | ⟨s', a', he, hR⟩
  · left; exact ⟨by rw [hj]; rfl, hr⟩
  · right
    rw [he]
    simp only [Out.bind_ok]
    have hlen := hR.len
    have hroom := hR.room
    have hl0 := h.ok.len0
    have hll := h.len
    cases hb : s'.buf with
    | none =>
      dsimp only
      have hc0 := hR.ok.none hb
      have hd : e = [] := List.eq_nil_of_length_eq_zero (by omega)
      rw [if_pos hd]
      have hbn : s.buf = none := by
        cases hs : s.buf with
        | none => rfl
        | some b0 => obtain ⟨b, e1, _⟩ := hR.moved b0 hs; rw [hb] at e1; cases e1
      have hA : Around (· = o) own a own a' := by
        refine ⟨hR.beg, hR.top, hR.stop, fun x _ _ => ⟨rfl, hR.mem x (fun b e => by rw [hb] at e; cases e)⟩, fun x h1 h2 h3 => h3⟩
      refine ⟨s', a', own, rfl, ?_, hA, hR.ledger⟩
      subst hd
      rw [List.append_nil]
      refine ⟨hR.ok, by rw [hlen]; exact hll, ?_, hR.one, fun b e => (by rw [hb] at e; cases e), fun b e => (by rw [hb] at e; cases e)⟩
      have := hR.cap2
      simp only [List.length_nil] at this
      omega
    | some b =>
      dsimp only
      have hst : ∀ y, own y ≠ .free → own y ≠ o → (y < b ∨ b + s'.cap ≤ y) := by
        intro y h1 h2
        by_contra hcon
        rcases hR.blk b hb y (by omega) (by omega) with ⟨b0, e0, h3, h4⟩ | ⟨h3, h4⟩
        · exact h2 (h.mine b0 e0 y h3 (by dsimp only; omega))
        · exact h1 (hfree y h3 (by have := hR.top; have := hR.stop; omega))
      have hA : Around (· = o) own a (ownBlk own o b s'.cap) { a' with mem := memWrite (b + s'.len) e a'.mem } := by
        refine ⟨hR.beg, hR.top, hR.stop, ?_, ?_⟩
        · intro y h1 h2
          have := hst y h1 h2
          refine ⟨?_, ?_⟩
          · unfold ownBlk; rw [if_neg (by omega)]
          · show memWrite _ _ _ _ = _
            rw [memWrite_out (by omega)]
            exact hR.mem y (fun b' e' => by rw [hb] at e'; cases e'; exact this)
        · intro y h1 h2 h3
          have := hR.ok.beg b hb
          dsimp only at h1 this
          unfold ownBlk; rw [if_neg (by omega)]; exact h3
      refine ⟨_, _, ownBlk own o b s'.cap, rfl, ?_, hA, hR.ledger⟩
      constructor
      · constructor
        · exact h.ok.kind
        · dsimp only; omega
        · dsimp only; omega
        · intro e; cases e
        · intro b' e; cases e; exact hR.ok.cap b hb
        · intro b' e; cases e; exact hR.ok.lo _ hb
        · intro b' e; cases e; exact hR.ok.beg _ hb
        · intro b' e; cases e; exact hR.ok.stop _ hb
        · intro b' e; cases e; exact hR.ok.aligned _ hb
      · dsimp only; rw [hlen, hll]; simp
      · dsimp only; have := hR.cap2; omega
      · intro b' e; exact hR.one b hb
      · intro b' e' y h1 h2
        dsimp only at e' h2
        cases e'
        unfold ownBlk; rw [if_pos ⟨h1, by omega⟩]
      · intro b' e' i y hy
        dsimp only at e'
        cases e'
        show memWrite _ _ _ _ = _
        dsimp only
        rw [Int.one_mul]
        rcases Nat.lt_or_ge i l.length with hi | hi
        · rw [List.getElem?_append_left hi] at hy
          cases hb0 : s.buf with
          | none => have := h.ok.none hb0; have := h.ok.lenCap; omega
          | some b0 =>
            obtain ⟨b2, e2, hm⟩ := hR.moved b0 hb0
            rw [hb] at e2; cases e2
            rw [memWrite_out (by left; omega), hm i (by omega) (by omega)]
            have := h.at_ b0 hb0 i y hy
            dsimp only at this
            rw [Int.one_mul] at this
            exact this
        · rw [List.getElem?_append_right hi] at hy
          have hlt := (List.getElem?_eq_some_iff.1 hy).1
          rw [memWrite_in (by omega) (by omega), show (b + (i : Int) - (b + s'.len)).toNat = i - l.length by omega,
            List.getD_eq_getElem?_getD, hy]
          rfl

/-- The text under construction in memory. -/
def RawR (V : MEnv) (M : MDom) (d : Dom) (t : Str) (b : Arr × Arena) : Prop :=
  ∃ own, Rep V own (2 * b.1.cap) M b.2 d ∧ ArrRep own (.arr 10) ⟨1, 1⟩ ByteAt V.lo b.2 b.1 t

theorem rawAdd_sim {V : MEnv} {M : MDom} {d : Dom} {t : Str} {b : Arr × Arena} (h : RawR V M d t b) (e : Str) :
    SimC V (fun t => d.bytes + 4 * (t.length : Int)) (.ok (t ++ e)) (rawAdd e b.1 b.2) (RawR V M d) := by
  obtain ⟨own, hr, hb⟩ := h
  have h1 := hr.led
  have h2 := hr.bytes
  have h3 := hr.stop
  have h4 := hb.len
  refine ⟨fun r er => ?_, fun er => by cases er⟩
  cases er
  rcases rawAdd_rep (e := e) hb hr.lo hr.top hr.free with ⟨hj, hc, hs⟩ | ⟨s', a', own', he, hr', hA, hl⟩
  · left
    refine ⟨hj, ?_⟩
    rw [List.length_append]
    push_cast
    omega
  · right
    exact ⟨_, he, own', hr.other hA (fun o ho => ho) (by dsimp only; omega), hr'⟩

theorem addChunk_sim {V : MEnv} {M : MDom} {d : Dom} {t : Str} {b : Arr × Arena} (h : RawR V M d t b) (e : Str) (app : Bool) :
    SimC V (fun t => d.bytes + 4 * (t.length : Int)) (.ok ((if app then t ++ [cSp] else t) ++ e)) (memAddChunk e app b.1 b.2) (RawR V M d) := by
  unfold memAddChunk
  cases app
  · simp only [Bool.false_eq_true, if_false, Out.bind_ok]
    exact rawAdd_sim h e
  · simp only [if_true]
    have := (rawAdd_sim h [cSp]).bind (L2 := fun t => d.bytes + 4 * (t.length : Int)) (f := fun t => .ok (t ++ e))
      (g := fun b => rawAdd e b.1 b.2) (R2 := RawR V M d) (fun r _ => Ok.ok (by rw [List.length_append]; push_cast; omega))
      (fun r b _ hR => rawAdd_sim hR e)
    exact this

theorem textLoop_grows (s tag : Str) : ∀ (f idx : Nat) (raw : Str) (app : Bool),
    Ok (fun r => raw.length ≤ r.1.length) (textLoop s tag f idx raw app)
  | 0, _, _, _ => Ok.hang
  | f + 1, idx, raw, app => by
    simp only [textLoop]
    split
    · exact Ok.ok (le_refl _)
    · refine Ok.triv.bind fun ⟨stop, cmt⟩ _ => ?_
      dsimp only
      split
      · exact Ok.ok (le_refl _)
      · split
        · exact Ok.triv.bind fun i _ => textLoop_grows s tag f _ _ _
        · refine Ok.triv.bind fun ⟨i, t⟩ _ => ?_
          dsimp only
          refine (textLoop_grows s tag f _ _ _).mono fun r hr => ?_
          rw [List.length_append] at hr
          split at hr
          · rw [List.length_append] at hr; omega
          · omega

theorem textLoop_sim {V : MEnv} {M : MDom} {d : Dom} {src tag : MStr} {s t : Str} (hs : Tok V src s) (ht : Tok V tag t) :
    ∀ (f idx : Nat) (acc : Str) (app : Bool) (raw : Arr) (a : Arena), RawR V M d acc (raw, a) →
    SimC V (fun r => d.bytes + 4 * (r.1.length : Int)) (textLoop s t f idx acc app) (memTextLoop src tag f idx raw app a)
      (fun r b => b.2.1 = r.2 ∧ RawR V M d r.1 (b.1, b.2.2))
  | 0, _, _, _, _, _, _ => SimC.hang
  | f + 1, idx, acc, app, raw, a, h => by
    obtain ⟨own, hr, hb⟩ := h
    simp only [textLoop, memTextLoop]
    dsimp only at hr hb
    rw [hr.read hs, hr.read ht]
    cases hc : s[idx]? with
    | none => exact SimC.okR ⟨rfl, own, hr, hb⟩
    | some ch =>
      dsimp only
      refine SimC.same fun ⟨stop, cmt⟩ _ => ?_
      dsimp only
      by_cases hst : stop = true
      · rw [if_pos hst, if_pos hst]; exact SimC.okR ⟨rfl, own, hr, hb⟩
      · rw [if_neg hst, if_neg hst]
        by_cases hcm : cmt = true
        · rw [if_pos hcm, if_pos hcm]
          exact SimC.same fun i _ => textLoop_sim hs ht f _ _ _ _ _ ⟨own, hr, hb⟩
        · rw [if_neg hcm, if_neg hcm]
          refine SimC.same fun ⟨i, c⟩ _ => ?_
          dsimp only
          have := (addChunk_sim (b := (raw, a)) ⟨own, hr, hb⟩ c app).bind (L2 := fun r : Str × Nat => d.bytes + 4 * (r.1.length : Int))
            (f := fun acc => textLoop s t f (skipSpace s i) acc true) (g := fun b => memTextLoop src tag f (skipSpace s i) b.1 true b.2)
            (R2 := fun r b => b.2.1 = r.2 ∧ RawR V M d r.1 (b.1, b.2.2))
            (fun r _ => (textLoop_grows s t f _ _ _).mono fun q hq => by omega)
            (fun r b _ hR => textLoop_sim hs ht f _ _ _ _ _ hR)
          exact this

theorem arrRep_empty {α : Type} {own : Int → Owner} {o : Owner} {k : Kind} {E : ElemAt α} {lo : Int} {a : Arena} (hk : k.OK) :
    ArrRep own o k E lo a .empty [] := by
  refine ⟨⟨hk, ?_, ?_, ?_, ?_, ?_, ?_, ?_, ?_⟩, rfl, ?_, ?_, ?_, ?_⟩
  · decide
  · decide
  · intro _; rfl
  · intro b e; cases e
  · intro b e; cases e
  · intro b e; cases e
  · intro b e; cases e
  · intro b e; cases e
  · decide
  · intro b e; cases e
  · intro b e; cases e
  · intro b e; cases e

/-- The owner map after a text is finished. -/
def freeze (own : Int → Owner) : Int → Owner := fun x => if own x = .arr 10 then .fixed else own x

theorem around_freeze (own : Int → Owner) {a : Arena} (h : a.beg ≤ a.stop) : Around (· = .arr 10) own a (freeze own) a := by
  refine ⟨le_refl _, h, rfl, fun x h1 h2 => ⟨?_, rfl⟩, fun x _ _ h => ?_⟩
  · unfold freeze; rw [if_neg h2]
  · unfold freeze; rw [if_neg (by rw [h]; decide), h]

theorem Rep.textNode {V : MEnv} {own : Int → Owner} {M : MDom} {a : Arena} {d : Dom} (h : Rep V own 0 M a d) {src tag : MStr} {s t : Str}
    (hs : Tok V src s) (ht : Tok V tag t) (idx : Nat) :
    SimC V (fun r => r.2.2.bytes) (parseTextNode s idx t d) (memParseTextNode src idx tag M a)
      (fun r b => b.1 = r.1 ∧ r.1 < 65536 ∧ b.2.1 = r.2.1 ∧ DomR V r.2.2 b.2.2) := by
  unfold parseTextNode memParseTextNode
  refine (h.createNode .text).bind (fun ⟨id, d1⟩ hq => ?_) fun ⟨id, d1⟩ ⟨id', M1, a1⟩ hq hR => ?_
  · have h1 := createNode_bytes _ _ _ hq
    refine (textLoop_grows _ _ _ _ _ _).bind fun r2 _ => ?_
    intro r hr
    have hn := h1.2.2
    rw [if_pos rfl] at hn
    dsimp only at hr hn
    unfold Dom.node at hr
    rw [hn] at hr
    simp only [Out.bind_ok] at hr
    cases hr
    have := setNode_bytes (d := d1) (n := id) (y := ⟨.text, .text r2.1⟩) hn
    have e : (Node.textLen ⟨.text, .text []⟩ : Int) = 0 := rfl
    dsimp only
    omega
  · obtain ⟨e1, hid, own1, hR1⟩ := hR
    dsimp only at e1 hid hR1 ⊢
    subst e1
    have hn := (createNode_bytes _ _ _ hq).2.2
    rw [if_pos rfl] at hn
    dsimp only at hn
    rw [hs.len]
    refine (textLoop_sim (M := M1) (d := d1) hs ht (s.length + 1) idx [] false .empty a1 ⟨own1, ?_, arrRep_empty kind_1⟩).bind (fun r2 _ => ?_)
      fun ⟨raw, i⟩ ⟨rb, i', a2⟩ _ hR => ?_
    · exact hR1
    · intro r hr
      unfold Dom.node at hr
      rw [hn] at hr
      simp only [Out.bind_ok] at hr
      cases hr
      have := setNode_bytes (d := d1) (n := id') (y := ⟨.text, .text r2.1⟩) hn
      have e : (Node.textLen ⟨.text, .text []⟩ : Int) = 0 := rfl
      have e' : (Node.textLen ⟨.text, .text r2.1⟩ : Int) = r2.1.length := rfl
      dsimp only
      omega
    · obtain ⟨e2, own2, hr2, hb2⟩ := hR
      dsimp only at e2 hr2 hb2 ⊢
      subst e2
      have hf := hr2.other (around_freeze own2 hr2.top) (fun o ho => ho) (le_refl _)
      have hlen := hb2.len
      have hst : StrAt a2.mem (freeze own2) (bufPtr rb.buf) raw := by
        intro j c hj
        have hjl := (List.getElem?_eq_some_iff.1 hj).1
        cases hb : rb.buf with
        | none => have := hb2.ok.none hb; have := hb2.ok.lenCap; omega
        | some b =>
          have h1 := hb2.at_ b hb j c hj
          have h2 := hb2.mine b hb (b + j) (by omega) (by have := hb2.ok.lenCap; dsimp only; omega)
          dsimp only at h1
          rw [Int.one_mul] at h1
          refine ⟨?_, h1⟩
          unfold bufPtr freeze
          rw [Option.getD_some, if_pos h2]
      have hp : 0 ≤ bufPtr rb.buf ∧ bufPtr rb.buf + rb.cap < 2 ^ 62 := by
        have := hr2.pos; have := hr2.max; have := hr2.stop
        cases hb : rb.buf with
        | none => have := hb2.ok.none hb; unfold bufPtr; simp; omega
        | some b =>
          have := hb2.ok.lo b hb; have := hb2.ok.stop b hb
          dsimp only at this
          unfold bufPtr; rw [Option.getD_some]; omega
      have hlc := hb2.ok.lenCap
      obtain ⟨a3, he, hr3⟩ := hf.poke (x' := 0) (nd := ⟨.text, .text []⟩) (nd' := ⟨.text, .text raw⟩) hn
        (e := encStr ⟨bufPtr rb.buf, rb.len.toNat⟩) (by rw [encStr_length]; decide)
        (fun p hN hF => poke_text (nd := ⟨.text, .text []⟩) (by dsimp only; omega) hp.1 (by dsimp only; omega) (by dsimp only; omega)
          (hst.keep hF) hN)
        (by
          have := hb2.cap2
          show 4 * (0 : Int) + 2 * rb.cap ≤ 4 * (raw.length : Int) + 0
          omega)
      rw [he]
      unfold Dom.node
      rw [hn]
      exact SimC.okR ⟨rfl, hid, rfl, _, hr3⟩

end Flo
