import Verif.Proofs.EditMem
/-!
# Editing in memory: texts, tags and attributes
-/
namespace Flo
open Spec

variable {V : MEnv} {B T N : Int} {d : Dom} {M : MDom} {a : Arena}

/-! ## Texts -/

/-- A string in memory outside the free part of the arena. -/
structure Away (a : Arena) (r : MStr) (t : Str) : Prop where
  len : r.len = t.length
  out : ∀ (i : Nat) c, t[i]? = some c → (r.ptr + (i : Int) < a.beg ∨ a.stop ≤ r.ptr + (i : Int)) ∧ a.mem (r.ptr + (i : Int)) = c

theorem StrAt.away {own : Int → Owner} {x : Int} (h : Rep V own x M a d) {q : Int} {s : Str} (hs : StrAt a.mem own q s) (i : Nat) (c : UInt8)
    (hc : s[i]? = some c) : (q + (i : Int) < a.beg ∨ a.stop ≤ q + (i : Int)) ∧ a.mem (q + (i : Int)) = c := by
  obtain ⟨h1, h2⟩ := hs i c hc
  refine ⟨?_, h2⟩
  by_contra hcon
  have := h.free (q + (i : Int)) (by omega) (by omega)
  rw [h1] at this
  cases this

theorem EdR.away (h : EdR V B T N d M a) {r : MStr} {t : Str} (ht : Tok V r t) : Away a r t := by
  obtain ⟨own, x, h1, h2⟩ := h
  exact ⟨ht.len, (h1.tok ht).away h1⟩

theorem EdR.nodeText (h : EdR V B T N d M a) {n : Nat} {nd : Node} (hn : d.nodes[n]? = some nd) {s : Str} (hs : nd.payload = .text s) :
    ∃ r, memNodeText n M a.mem = .ok r ∧ Away a r s := by
  unfold memNodeText
  rw [h.node hn, Out.bind_ok]
  obtain ⟨own, x, h1, h2⟩ := h
  have := (h1.nodes.addr hn).2.2
  rw [bufPtr_entry, hs] at this
  exact ⟨_, rfl, this.1, this.2.away h1⟩

/-- A block of free memory is taken and filled. -/
theorem Rep.fill {own : Int → Owner} {x : Int} (h : Rep V own x M a d) {s : Str} {mem : Int → UInt8} (hfit : a.beg + (s.length : Int) ≤ a.stop)
    (hout : ∀ y, y < a.beg ∨ a.stop ≤ y → mem y = a.mem y) (hin : ∀ (i : Nat) c, s[i]? = some c → mem (a.beg + (i : Int)) = c) :
    ∃ own', Rep V own' (x + s.length) M ⟨a.beg + s.length, a.stop, mem⟩ d ∧ StrAt mem own' a.beg s := by
  have htop := h.top
  let own' : Int → Owner := fun y => if a.beg ≤ y ∧ y < a.beg + (s.length : Int) then .fixed else own y
  have hA : Around (fun _ => False) own a own' ⟨a.beg + s.length, a.stop, mem⟩ := by
    refine ⟨by dsimp only; omega, hfit, rfl, fun y hy _ => ?_, fun y h1 h2 h3 => ?_⟩
    · have : y < a.beg ∨ a.stop ≤ y := by
        by_contra hcon
        exact hy (h.free y (by omega) (by omega))
      refine ⟨?_, hout y this⟩
      show (if _ then _ else _) = _
      rw [if_neg (by omega)]
    · dsimp only at h1
      show (if _ then _ else _) = _
      rw [if_neg (by omega)]; exact h3
  refine ⟨own', h.other hA (fun _ h => h.elim) (by dsimp only; omega), fun i c hc => ⟨?_, hin i c hc⟩⟩
  have := (List.getElem?_eq_some_iff.1 hc).1
  show (if _ then _ else _) = _
  rw [if_pos (by omega)]

/-- The program that allocates a text, fills it and stores it in a node. -/
def memPutText (n len : Nat) (fill : Int → (Int → UInt8) → Int → UInt8) (M : MDom) (a : Arena) : Out Arena := do
  let (p, a) ← arenaAlloc 1 1 len false false a
  match p with
  | none => .ub .nullDeref
  | some p => arrPoke 24 n 8 (encStr ⟨p, len⟩) M.nodes { a with mem := fill p a.mem }

theorem EdR.putText (h : EdR V B T N d M a) {n : Nat} {nd : Node} (hn : d.nodes[n]? = some nd) (s : Str)
    {fill : Int → (Int → UInt8) → Int → UInt8} (hfill : a.beg + (s.length : Int) ≤ a.stop →
      (∀ y, y < a.beg ∨ a.beg + (s.length : Int) ≤ y → fill a.beg a.mem y = a.mem y) ∧
      ∀ (i : Nat) c, s[i]? = some c → fill a.beg a.mem (a.beg + (i : Int)) = c) :
    SimC V (fun _ => B + s.length) (.ok (d.setNode n { nd with payload := .text s })) (memPutText n s.length fill M a)
      (EdA V (B + s.length) (T + s.length) N M) := by
  obtain ⟨own, x, hr, hB, hT, hN⟩ := h
  refine ⟨fun r e => ?_, fun e => by cases e⟩
  cases e
  have hled := hr.led
  have hby := hr.bytes
  have hst := hr.stop
  have htop := hr.top
  have hlo := hr.lo
  have hpos := hr.pos
  have hmax := hr.max
  unfold memPutText
  rcases arenaAlloc_cases (size := 1) (align := 1) (count := (s.length : Int)) (zero := false) (nof := false) (a := a) (by omega) isAlign_one
    (by omega) with ⟨p, a', he, hA⟩ | ⟨hlt, hj⟩
  rotate_left
  · left
    rw [if_neg (by decide)] at hj
    rw [hj]
    exact ⟨rfl, by omega⟩
  · right
    have hab := hA.above
    have hcl := hA.close
    have hp : p = a.beg := by omega
    subst hp
    have hbeg := hA.beg
    have hs' := hA.stop
    have hk := hA.keeps rfl
    rw [he]
    simp only [Out.bind_ok]
    obtain ⟨beg', stop', mem'⟩ := a'
    dsimp only at hbeg hs' hk ⊢
    subst hk hs'
    rw [Int.one_mul] at hbeg
    subst hbeg
    have hfit : a.beg + (s.length : Int) ≤ a.stop := by
      by_cases h0 : 0 < (s.length : Int)
      · have := hA.fits h0; omega
      · omega
    obtain ⟨own', h2, h3⟩ := hr.fill (s := s) (mem := fill a.beg a.mem) hfit (fun y hy => (hfill hfit).1 y (by omega)) (hfill hfit).2
    obtain ⟨a2, he2, hr2⟩ := h2.pokeNode (nd' := { nd with payload := .text s }) (x' := x + 4 * (nd.textLen : Int) - 3 * (s.length : Int)) (off := 8)
      (e := encStr ⟨a.beg, s.length⟩) hn (by omega) (by rw [encStr_length]; omega)
      (fun p hp hf => poke_text (r := ⟨a.beg, s.length⟩) rfl (by dsimp only; omega) (by dsimp only; omega) (by dsimp only; omega) (h3.keep hf) hp)
      (by show _ ≤ 4 * (s.length : Int) + _; omega)
    refine ⟨a2, he2, own', _, hr2, ?_, ?_, hN⟩
    · have := setNode_bytes (d := d) (y := { nd with payload := .text s }) hn
      have e : (({ nd with payload := .text s } : Node).textLen : Int) = s.length := rfl
      omega
    · have := setNode_textLen (y := { nd with payload := .text s }) hn
      have e : (({ nd with payload := .text s } : Node).textLen : Int) = s.length := rfl
      omega

theorem SimC.cast {α β : Type} {L : α → Int} {p : Out α} {x x' : Out β} {R : α → β → Prop} (h : SimC V L p x R) (e : x = x') :
    SimC V L p x' R := e ▸ h

theorem copy_in {dst src n y : Int} {mem : Int → UInt8} (h : dst ≤ y ∧ y < dst + n) : memCopy dst src n mem y = mem (y - dst + src) := by
  unfold memCopy; rw [if_pos h]

theorem copy_out {dst src n y : Int} {mem : Int → UInt8} (h : ¬(dst ≤ y ∧ y < dst + n)) : memCopy dst src n mem y = mem y := by
  unfold memCopy; rw [if_neg h]

/-- The joined text in a new block. -/
theorem join_at {r1 r2 : MStr} {s1 s2 : Str} (h1 : Away a r1 s1) (h2 : Away a r2 s2) (hfit : a.beg + ((s1 ++ [cSp] ++ s2).length : Int) ≤ a.stop) :
    (∀ y, y < a.beg ∨ a.beg + ((s1 ++ [cSp] ++ s2).length : Int) ≤ y → memJoin a.beg r1 r2 a.mem y = a.mem y) ∧
    ∀ (i : Nat) c, (s1 ++ [cSp] ++ s2)[i]? = some c → memJoin a.beg r1 r2 a.mem (a.beg + (i : Int)) = c := by
  have l1 := h1.len
  have l2 := h2.len
  have hl : (s1 ++ [cSp] ++ s2).length = s1.length + 1 + s2.length := by simp; omega
  rw [hl] at hfit ⊢
  push_cast at hfit ⊢
  have c1 : ([cSp] : Str).length = 1 := rfl
  refine ⟨fun y hy => ?_, fun i c hc => ?_⟩
  · unfold memJoin
    rw [copy_out (by omega), memWrite_out (by rw [c1]; push_cast; omega), copy_out (by omega)]
  · have hi := (List.getElem?_eq_some_iff.1 hc).1
    rw [hl] at hi
    unfold memJoin
    rcases Nat.lt_trichotomy i s1.length with h | h | h
    · rw [copy_out (by omega), memWrite_out (by rw [c1]; push_cast; omega), copy_in (by omega)]
      rw [List.append_assoc, List.getElem?_append_left h] at hc
      rw [show a.beg + (i : Int) - a.beg + r1.ptr = r1.ptr + (i : Int) by omega]
      exact (h1.out i c hc).2
    · rw [copy_out (by omega), memWrite_in (by omega) (by rw [c1]; push_cast; omega)]
      rw [List.append_assoc, List.getElem?_append_right (by omega), h] at hc
      rw [show (a.beg + (i : Int) - (a.beg + (r1.len : Int))).toNat = 0 by omega]
      simp at hc
      rw [← hc]; rfl
    · rw [copy_in (by omega)]
      rw [List.append_assoc, List.getElem?_append_right (by omega), List.getElem?_append_right (by simp; omega)] at hc
      rw [show i - s1.length - ([cSp] : Str).length = i - (s1.length + 1) by rw [c1]; omega] at hc
      have ho := h2.out _ c hc
      rw [show a.beg + (i : Int) - (a.beg + (r1.len : Int) + 1) + r2.ptr = r2.ptr + ((i - (s1.length + 1) : Nat) : Int) by omega]
      rw [memWrite_out (by rw [c1]; push_cast; omega), copy_out (by omega)]
      exact ho.2

theorem EdR.addText (h : EdR V B T N d M a) {r : MStr} {t : Str} (ht : Away a r t) (n : Nat) (ap : Bool) :
    SimC V (fun _ => B + T + t.length + 1) (addTextToTextNode n t ap d) (memAddText n r ap M a)
      (EdA V (B + T + t.length + 1) (2 * T + t.length + 1) N M) := by
  have hT := h.text
  unfold addTextToTextNode
  refine SimC.node fun nd hn => SimC.getText fun prev hp => ?_
  obtain ⟨q, hq, hw⟩ := h.nodeText hn hp
  have hle : (prev.length : Int) ≤ T := by
    have := setNode_textLen (y := ⟨.removed, .tag 0⟩) hn
    have e1 : (Node.textLen ⟨.removed, .tag 0⟩ : Int) = 0 := rfl
    have e2 : (nd.textLen : Int) = prev.length := by unfold Node.textLen; rw [hp]
    omega
  unfold memAddText
  rw [hq, Out.bind_ok]
  have hl1 := hw.len
  have hl2 := ht.len
  cases ap
  · have := h.putText hn (t ++ [cSp] ++ prev) (fill := fun p mem => memJoin p r q mem) (fun hfit => join_at ht hw hfit)
    have hl : (t ++ [cSp] ++ prev).length = q.len + r.len + 1 := by simp; omega
    rw [hl] at this
    refine SimC.mono (L := fun _ => B + ((q.len + r.len + 1 : Nat) : Int))
      (R := EdA V (B + ((q.len + r.len + 1 : Nat) : Int)) (T + ((q.len + r.len + 1 : Nat) : Int)) N M) ?_ (fun _ _ => by push_cast; omega)
      (fun _ _ _ h => EdR.mono h (B' := B + T + t.length + 1) (T' := 2 * T + t.length + 1) (by push_cast; omega) (by push_cast; omega) (le_refl _))
    exact this.cast rfl
  · have := h.putText hn (prev ++ [cSp] ++ t) (fill := fun p mem => memJoin p q r mem) (fun hfit => join_at hw ht hfit)
    have hl : (prev ++ [cSp] ++ t).length = q.len + r.len + 1 := by simp; omega
    rw [hl] at this
    refine SimC.mono (L := fun _ => B + ((q.len + r.len + 1 : Nat) : Int))
      (R := EdA V (B + ((q.len + r.len + 1 : Nat) : Int)) (T + ((q.len + r.len + 1 : Nat) : Int)) N M) ?_ (fun _ _ => by push_cast; omega)
      (fun _ _ _ h => EdR.mono h (B' := B + T + t.length + 1) (T' := 2 * T + t.length + 1) (by push_cast; omega) (by push_cast; omega) (le_refl _))
    exact this.cast rfl

theorem EdR.tryMerge (h : EdR V B T N d M a) (p r : Nat) (ap : Bool) :
    SimC V (fun _ => B + 2 * T + 1) (Flo.tryMerge p r ap d) (memTryMerge p r ap M a) (EdB V (B + 2 * T + 1) (3 * T + 1) N M) := by
  have hT := h.text
  unfold Flo.tryMerge
  refine SimC.node fun nd hn => ?_
  unfold memTryMerge
  rw [h.isText hn, Out.bind_ok]
  by_cases ht : nd.type = .text
  · rw [if_pos ht, if_pos (by simpa using ht)]
    refine SimC.node fun nr hr => SimC.getText fun t hp => ?_
    obtain ⟨q, hq, hw⟩ := h.nodeText hr hp
    rw [hq, Out.bind_ok]
    have hle : (t.length : Int) ≤ T := by
      have := setNode_textLen (y := ⟨.removed, .tag 0⟩) hr
      have e1 : (Node.textLen ⟨.removed, .tag 0⟩ : Int) = 0 := rfl
      have e2 : (nr.textLen : Int) = t.length := by unfold Node.textLen; rw [hp]
      omega
    exact (h.addText hw p ap).then (by omega) fun d' a' _ hR => SimC.okR ⟨rfl, EdR.mono hR (by omega) (by omega) (le_refl _)⟩
  · rw [if_neg ht, if_neg (by simpa using ht)]
    exact SimC.okR ⟨rfl, h.mono (by omega) (by omega) (le_refl _)⟩

theorem EdR.newText (h : EdR V B T N d M a) {r : MStr} {t : Str} (ht : Tok V r t) :
    SimC V (fun _ => B + 104 + t.length) (parseTextElement t d) (memParseTextElement r M a)
      (EdI V (B + 104 + t.length) (T + t.length) N) := by
  unfold parseTextElement memParseTextElement
  refine (h.create .text).then (by omega) fun ⟨id, d1⟩ ⟨id', M1, a1⟩ hq hR => ?_
  obtain ⟨e1, hid, hR⟩ := hR
  dsimp only at e1 hid hR ⊢
  subst e1
  refine SimC.node fun nd hn => ?_
  have hw := hR.away ht
  have hl := hw.len
  have := hR.putText hn t (fill := fun p mem => memCopy p r.ptr r.len mem) (fun hfit => by
    refine ⟨fun y hy => copy_out (by omega), fun i c hc => ?_⟩
    have hi := (List.getElem?_eq_some_iff.1 hc).1
    rw [copy_in (by omega), show a1.beg + (i : Int) - a1.beg + r.ptr = r.ptr + (i : Int) by omega]
    exact (hw.out i c hc).2)
  have := this.then (f := fun d => .ok (id', d)) (g := fun a => .ok (id', M1, a)) (R2 := EdI V (B + 104 + t.length) (T + t.length) N) (le_refl _)
    fun d2 a2 _ hR => SimC.okR ⟨rfl, hid, hR⟩
  rw [← hl] at this ⊢
  refine this.cast ?_
  unfold memPutText
  cases arenaAlloc 1 1 (r.len : Int) false false a1 with
  | ok x => rcases x with ⟨_ | p, a⟩ <;> rfl
  | longjmp => rfl
  | ub w => rfl
  | hang => rfl

end Flo
