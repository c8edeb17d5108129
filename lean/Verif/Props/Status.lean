import Verif.Proofs.Status
import Verif.Props.Counters
/-!
# The status report of a DOM (C78)
-/
namespace Flo
open Spec

theorem printDomStatus_prints {d : Dom} (h : Reachable d) (hp : Printable d) :
    Prints (fun b => statusNames d b >>= fun b => statusNodesPart d b >>= fun b => statusAttrsPart d b >>= fun b => statusLinksPart d b)
      (statusText d) := by
  obtain ⟨ch, hi, _⟩ := Reachable.inv h
  obtain ⟨h1, h2⟩ := C56_tables_fit d h
  obtain ⟨r1, r2, r3, r4, r5⟩ := hi.rows_lt
  have hn := statusNames_spec hi.names hp.keys hp.vals hp.bools hp.tags
  have kl := hi.names.key.len
  have kc := hi.names.key.le
  have vl := hi.names.val.len
  have vc := hi.names.val.le
  have bl := hi.names.bool.len
  have bc := hi.names.bool.le
  have tl := hi.names.tag.len
  have tc := hi.names.tag.le
  rw [List.length_map] at tl
  refine Prints.text (hn.bind ((statusNodesPart_spec (by omega) (by omega) (by omega) (by omega)
    (by omega) ?_ hp.tags).bind ((statusAttrsPart_spec hp.boolRows hp.propRows ?_ ?_).bind
    (statusLinksPart_spec (by omega) hp.links (by omega) ?_ ?_ ?_)))) ?_
  · intro nd hnd ht
    obtain ⟨i, hi'⟩ := List.mem_iff_getElem?.1 hnd
    obtain ⟨t, e, _, hlt⟩ := (hi.good i nd hi').doc ht
    exact ⟨t, e, by omega⟩
  · intro r hr; have := r4 r hr; omega
  · intro r hr; have := r5 r hr; omega
  · intro r hr; have := r1 r hr; omega
  · intro r hr; have := r2 r hr; omega
  · intro r hr; have := r3 r hr; omega
  · simp only [statusText, List.append_assoc]

/-- **C78** The status report shows the whole state of the DOM: in every reachable DOM the function prints the four name
tables (every name once, with its identifier, in the order of the identifiers), all nodes with their types and tag identifiers, the registries, all
attribute rows and all link rows, with the right totals, and has flushed them when it returns, provided that no write
fails. -/
theorem C78_status_report (d : Dom) (h : Reachable d) (hp : Printable d) :
    ∀ b : WBuf, 0 < b.cap → b.data.length ≤ b.cap → NoErrors b.sched →
      ∃ b', printDomStatus d b = .ok b' ∧ b'.data = [] ∧ b'.sink = b.sink ++ b.data ++ statusText d := by
  have hf := printDomStatus_prints h hp
  intro b hcap hlen hw
  obtain ⟨b', e, h1, h2⟩ := hf.flushed b hcap hlen hw
  refine ⟨b', ?_, h1, h2⟩
  rw [← e]
  unfold printDomStatus
  simp only [bind_assoc]

/-- Iterating over the name tables of a reachable DOM visits every name once, with its identifier, in the order of the
identifiers. -/
theorem C78_name_tables (d : Dom) (h : Reachable d) :
    tableEntries d.keyMap = .ok (numbered d.keyReg) ∧
    tableEntries d.valMap = .ok (numbered d.valReg) ∧
    tableEntries d.boolMap = .ok (numbered d.boolReg) ∧
    tableEntries d.tagMap = .ok (numbered (d.tagReg.map (·.1))) := by
  obtain ⟨ch, hi, _⟩ := Reachable.inv h
  exact ⟨hi.names.key.entries, hi.names.val.entries, hi.names.bool.entries, hi.names.tag.entries⟩

/-- What the report on a small DOM says (the buffer has 8 bytes, so it is flushed many times on the way). -/
def sampleReport (d : Dom) : Bool :=
  decide (d.nodes.length = 5 ∧ d.keyReg = [[], b!"id"] ∧ d.tagReg.length = 3) &&
  okAnd (printDomStatus d ⟨8, [], [], []⟩) (fun b => decide (b.data = []) &&
    b.sink.tails.any (b!"Node ID: 4     Node type: Text      \n".isPrefixOf) &&
    b.sink.tails.any (b!"tag ID: 2     tag: b                    isPaired: true\n".isPrefixOf) &&
    b.sink.tails.any (b!"node ID: 2   key ID: 1   value ID: 1\n".isPrefixOf) &&
    b.sink.tails.any (b!"parent: 3     child: 4    \n".isPrefixOf))

example : ∃ d, Reachable d ∧ Printable d ∧ sampleReport d = true := by
  obtain ⟨d, h, hd⟩ := someAnd_ex (x := createDom b!"<p id=x><b>c</b></p>") (p := fun d => decide (
    (∀ s ∈ d.keyReg, s.length < 2 ^ 32) ∧ (∀ s ∈ d.valReg, s.length < 2 ^ 32) ∧ (∀ s ∈ d.boolReg, s.length < 2 ^ 32) ∧
    (∀ r ∈ d.tagReg, r.1.length < 2 ^ 32) ∧ d.boolProps.length < 2 ^ 63 ∧ d.props.length < 2 ^ 63 ∧ d.pc.length < 2 ^ 63) && sampleReport d) (by decide +kernel)
  rw [Bool.and_eq_true, decide_eq_true_eq] at hd
  obtain ⟨⟨a, b, c, e, f, g, k⟩, hd⟩ := hd
  exact ⟨d, .parsed h, ⟨a, b, c, e, f, g, k⟩, hd⟩

end Flo
