import Verif.Model.Files
import Verif.Spec.Log
import Verif.Proofs.Log
import Verif.Proofs.Post
/-!
# Printing into a write buffer outputs the printed text, piece by piece
-/
namespace Flo
open Spec

/-- Appending the pieces one after the other, without flags. -/
def pieceOps (ts : List Str) : List LogOp := ts.map (fun t => LogOp.append t ⟨false, false⟩)

/-- `f` appends pieces that make up `s`. -/
def Emits (f : WBuf → Out WBuf) (s : Str) : Prop := ∃ ts : List Str, ts.flatten = s ∧ ∀ b, f b = runLogs (pieceOps ts) b

theorem runLogs_append (xs ys : List LogOp) : ∀ b, runLogs (xs ++ ys) b = (runLogs xs b >>= runLogs ys) := by
  induction xs with
  | nil => intro b; rfl
  | cons x xs ih =>
    intro b
    show (runLog x b >>= fun b => runLogs (xs ++ ys) b) = ((runLog x b >>= fun b => runLogs xs b) >>= runLogs ys)
    rw [bind_assoc]
    congr 1
    funext b
    exact ih b

theorem Emits.nil : Emits (fun b => .ok b) [] := ⟨[], rfl, fun _ => rfl⟩

theorem Emits.log (t : Str) : Emits (logStr t) t := by
  refine ⟨[t], by simp, fun b => ?_⟩
  show appendToBuffer t ⟨false, false⟩ b = (appendToBuffer t ⟨false, false⟩ b >>= fun b => .ok b)
  cases appendToBuffer t ⟨false, false⟩ b <;> rfl

theorem Emits.comp {f g : WBuf → Out WBuf} {s t : Str} (hf : Emits f s) (hg : Emits g t) :
    Emits (fun b => f b >>= g) (s ++ t) := by
  obtain ⟨xs, ex, hx⟩ := hf
  obtain ⟨ys, ey, hy⟩ := hg
  refine ⟨xs ++ ys, by simp [ex, ey], fun b => ?_⟩
  have : g = runLogs (pieceOps ys) := funext hy
  dsimp only
  rw [hx, this]
  unfold pieceOps
  rw [List.map_append]
  exact (runLogs_append _ _ b).symm

theorem Emits.congr {f g : WBuf → Out WBuf} {s t : Str} (hf : Emits f s) (h : ∀ b, g b = f b) (e : t = s) : Emits g t := by
  obtain ⟨xs, ex, hx⟩ := hf
  exact ⟨xs, by rw [e, ex], fun b => by rw [h, hx]⟩

theorem emitBools_spec {n : Nat} {d : Dom} : ∀ {rows : List Row} {s : Str}, printBools n d rows = .ok s →
    Emits (emitBools n d rows) s
  | [], s, h => by cases h; exact Emits.nil
  | r :: rs, s, h => by
    unfold printBools at h
    by_cases hr : r.1 = n
    · rw [if_pos hr] at h
      obtain ⟨t, ht, h⟩ := Out.bind_eq_ok.1 h
      obtain ⟨rest, hrest, h⟩ := Out.bind_eq_ok.1 h
      cases h
      refine (((Emits.log b!" ").comp (Emits.log t)).comp (emitBools_spec hrest)).congr (fun b => ?_) rfl
      unfold emitBools
      rw [if_pos hr, ht]
      simp only [Out.bind_ok]
      rw [bind_assoc]
    · rw [if_neg hr] at h
      refine (emitBools_spec h).congr (fun b => ?_) rfl
      conv_lhs => unfold emitBools
      rw [if_neg hr]

theorem emitProps_spec {n : Nat} {d : Dom} : ∀ {rows : List PropRow} {s : Str}, printProps n d rows = .ok s →
    Emits (emitProps n d rows) s
  | [], s, h => by cases h; exact Emits.nil
  | r :: rs, s, h => by
    unfold printProps at h
    by_cases hr : r.node = n
    · rw [if_pos hr] at h
      obtain ⟨k, hk, h⟩ := Out.bind_eq_ok.1 h
      obtain ⟨v, hv, h⟩ := Out.bind_eq_ok.1 h
      obtain ⟨rest, hrest, h⟩ := Out.bind_eq_ok.1 h
      cases h
      refine ((((((Emits.log b!" ").comp (Emits.log k)).comp (Emits.log b!"=\"")).comp (Emits.log v)).comp
        (Emits.log b!"\"")).comp (emitProps_spec hrest)).congr (fun b => ?_) rfl
      unfold emitProps
      rw [if_pos hr, hk, hv]
      simp only [Out.bind_ok, bind_assoc]
    · rw [if_neg hr] at h
      refine (emitProps_spec h).congr (fun b => ?_) rfl
      conv_lhs => unfold emitProps
      rw [if_neg hr]

theorem emitChildren_spec {pr : Nat → Out Str} {em : Nat → WBuf → Out WBuf} {d : Dom}
    (H : ∀ c s, pr c = .ok s → Emits (em c) s) : ∀ (f c : Nat) (s : Str), printChildren pr d f c = .ok s →
    Emits (emitChildren em d f c) s
  | 0, c, s, h => by cases h
  | f + 1, c, s, h => by
    unfold printChildren at h
    by_cases hc : c ≠ 0
    · rw [if_pos hc] at h
      obtain ⟨a, ha, h⟩ := Out.bind_eq_ok.1 h
      obtain ⟨b, hb, h⟩ := Out.bind_eq_ok.1 h
      cases h
      refine ((H c a ha).comp (emitChildren_spec H f _ b hb)).congr (fun b => ?_) rfl
      conv_lhs => unfold emitChildren
      rw [if_pos hc]
    · rw [if_neg hc] at h
      cases h
      refine Emits.nil.congr (fun b => ?_) rfl
      unfold emitChildren
      rw [if_neg hc]

theorem emitRest_spec {ch : WBuf → Out WBuf} {reg : Str × Bool} {cs : Str} (h : reg.2 = true → Emits ch cs) :
    Emits (emitRest ch reg) (if !reg.2 then (if strEq reg.1 b!"!DOCTYPE" then b!">" else b!"/>")
      else b!">" ++ cs ++ b!"</" ++ reg.1 ++ b!">") := by
  by_cases hr : (!reg.2) = true
  · rw [if_pos hr]
    refine (Emits.log _).congr (fun b => ?_) rfl
    unfold emitRest
    rw [if_pos hr]
  · rw [if_neg hr]
    have hr' : reg.2 = true := by simpa using hr
    refine (((((Emits.log b!">").comp (h hr')).comp (Emits.log b!"</")).comp (Emits.log reg.1)).comp
      (Emits.log b!">")).congr (fun b => ?_) rfl
    unfold emitRest
    rw [if_neg hr]
    simp only [bind_assoc]

theorem emitNode_spec {d : Dom} : ∀ (f n : Nat) (s : Str), printNodeF d f n = .ok s → Emits (emitNode d f n) s
  | 0, n, s, h => by cases h
  | f + 1, n, s, h => by
    unfold printNodeF at h
    obtain ⟨node, hn, h⟩ := Out.bind_eq_ok.1 h
    have hdoc : (do
        let t ← node.docTag
        let reg ← regAt d.tagReg t
        let bs ← printBools n d d.boolProps
        let ps ← printProps n d d.props
        if !reg.2 then
          Out.ok (b!"<" ++ reg.1 ++ bs ++ ps ++ (if strEq reg.1 b!"!DOCTYPE" then b!">" else b!"/>"))
        else do
          let cs ← printChildren (printNodeF d f) d (d.nn.length + 2) (getFirstChild n d)
          Out.ok (b!"<" ++ reg.1 ++ bs ++ ps ++ b!">" ++ cs ++ b!"</" ++ reg.1 ++ b!">")) = .ok s →
        Emits (fun b => (do
          let t ← node.docTag
          let reg ← regAt d.tagReg t
          let b ← logStr b!"<" b
          let b ← logStr reg.1 b
          let b ← emitBools n d d.boolProps b
          let b ← emitProps n d d.props b
          emitRest (emitChildren (emitNode d f) d (d.nn.length + 2) (getFirstChild n d)) reg b)) s := by
      intro h
      obtain ⟨t, ht, h⟩ := Out.bind_eq_ok.1 h
      obtain ⟨reg, hreg, h⟩ := Out.bind_eq_ok.1 h
      obtain ⟨bs, hbs, h⟩ := Out.bind_eq_ok.1 h
      obtain ⟨ps, hps, h⟩ := Out.bind_eq_ok.1 h
      have hhead := (((Emits.log b!"<").comp (Emits.log reg.1)).comp (emitBools_spec hbs)).comp (emitProps_spec hps)
      by_cases hr : (!reg.2) = true
      · rw [if_pos hr] at h
        cases h
        refine (hhead.comp (emitRest_spec (reg := reg) (ch := emitChildren (emitNode d f) d (d.nn.length + 2)
          (getFirstChild n d)) (cs := []) (fun e => by rw [e] at hr; cases hr))).congr (fun b => ?_) ?_
        · simp only [ht, hreg, Out.bind_ok, bind_assoc]
        · rw [if_pos hr]
      · rw [if_neg hr] at h
        obtain ⟨cs, hcs, h⟩ := Out.bind_eq_ok.1 h
        cases h
        refine (hhead.comp (emitRest_spec (reg := reg) (cs := cs) (fun _ => emitChildren_spec (fun c s h => emitNode_spec f c s h) _ _ _ hcs))).congr
          (fun b => ?_) ?_
        · simp only [ht, hreg, Out.bind_ok, bind_assoc]
        · rw [if_neg hr]; simp only [List.append_assoc]
    cases hty : node.type with
    | error =>
      simp only [hty] at h
      cases h
      refine Emits.nil.congr (fun b => ?_) rfl
      unfold emitNode
      rw [hn]; simp only [Out.bind_ok, hty]
    | root =>
      simp only [hty] at h
      refine (emitChildren_spec (fun c s h => emitNode_spec f c s h) _ _ _ h).congr (fun b => ?_) rfl
      conv_lhs => unfold emitNode
      rw [hn]; simp only [Out.bind_ok, hty]
    | text =>
      simp only [hty] at h
      refine (Emits.log s).congr (fun b => ?_) rfl
      unfold emitNode
      rw [hn]; simp only [Out.bind_ok, hty, h]
    | document =>
      simp only [hty] at h
      refine (hdoc h).congr (fun b => ?_) rfl
      conv_lhs => unfold emitNode
      rw [hn]; simp only [Out.bind_ok, hty]
    | removed =>
      simp only [hty] at h
      refine (hdoc h).congr (fun b => ?_) rfl
      conv_lhs => unfold emitNode
      rw [hn]; simp only [Out.bind_ok, hty]

theorem emitDom_spec {d : Dom} {s : Str} (h : printHTML d = .ok s) : Emits (emitDom d) s :=
  emitChildren_spec (fun c s h => emitNode_spec _ c s h) _ _ _ h

theorem flatMap_pieceOps (ts : List Str) : (pieceOps ts).flatMap LogOp.text = ts.flatten := by
  induction ts with
  | nil => rfl
  | cons t ts ih =>
    rw [pieceOps, List.map_cons, List.flatMap_cons, List.flatten_cons]
    show (t ++ lineEnd ⟨false, false⟩) ++ _ = _
    rw [show lineEnd ⟨false, false⟩ = [] from rfl, List.append_nil]
    congr 1

/-- Printing followed by a flush, with a file that reports no errors. -/
theorem Emits.flushed {f : WBuf → Out WBuf} {s : Str} (h : Emits f s) (b : WBuf) (hcap : 0 < b.cap)
    (hlen : b.data.length ≤ b.cap) (hw : NoErrors b.sched) :
    ∃ b' b'', f b = .ok b' ∧ flushIgnore b' = .ok b'' ∧ b''.data = [] ∧ b''.sink = b.sink ++ b.data ++ s ∧
      b'.data.length ≤ b'.cap ∧ b'.cap = b.cap := by
  obtain ⟨ts, e, hf⟩ := h
  have hs : ∀ s k fl, LogOp.minSize s k fl ∈ pieceOps ts → s.length < 2 ^ 32 := by
    intro s k fl hm
    obtain ⟨t, _, ht⟩ := List.mem_map.1 hm
    cases ht
  obtain ⟨b', e1, h⟩ := runLogs_spec (pieceOps ts) b hcap hlen (Or.inl hw) hs
  obtain ⟨u, hu⟩ := h.suffix
  obtain ⟨done, b'', e2, h2⟩ := flushBuffer_spec b'
  have hd : done = true := by
    cases done with
    | true => rfl
    | false => exact absurd rfl (NoErrors.suffix hw hu none (h2.fail rfl).2.2.2)
  subst hd
  refine ⟨b', b'', by rw [hf, e1], ?_, (h2.ok rfl).1, ?_, h.len hlen, h.cap⟩
  · unfold flushIgnore; rw [e2]; rfl
  · have := h.exact hw
    rw [flatMap_pieceOps, e] at this
    rw [(h2.ok rfl).2]; exact this

end Flo
