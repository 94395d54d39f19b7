/-
Lemmas on the text of namespace-dump.
-/
import Verif.Model.NsDump
import Verif.Spec.NsDump
import Verif.Lemmas.Wire
namespace Zdb.NsDump

theorem lines_append {a : Bytes} (h : (10 : UInt8) ∉ a) (t : Bytes) : lines (a ++ 10 :: t) = a :: lines t := by
  induction a with
  | nil => rfl
  | cons b l ih =>
    rw [List.mem_cons, not_or] at h
    rw [List.cons_append, lines, if_neg (fun e => h.1 e.symm), ih h.2]

/-- The first line that counts. -/
theorem value_hit {label : String} {ls : List Bytes} {v : Bytes} :
    ((str label ++ v) :: ls).findSome? (fun l => if (str label).isPrefixOf l then some (l.drop (str label).length) else none) =
      some v := by
  rw [List.findSome?_cons, if_pos (by simp)]
  simp

theorem not_prefix {a b v : Bytes} (hl : a.length = b.length) (hne : a ≠ b) : a.isPrefixOf (b ++ v) = false := by
  rw [Bool.eq_false_iff]
  intro h
  rw [List.isPrefixOf_iff_prefix] at h
  obtain ⟨t, ht⟩ := h
  exact hne (List.append_inj ht hl).1

theorem value_miss {label other : String} {ls : List Bytes} {v : Bytes} (hl : (str label).length = (str other).length)
    (hne : str label ≠ str other) :
    ((str other ++ v) :: ls).findSome? (fun l => if (str label).isPrefixOf l then some (l.drop (str label).length) else none) =
      ls.findSome? (fun l => if (str label).isPrefixOf l then some (l.drop (str label).length) else none) := by
  rw [List.findSome?_cons, if_neg (by rw [not_prefix hl hne]; decide)]

theorem digits_line (n : Nat) : (10 : UInt8) ∉ Resp.digits n := by
  intro h
  have := Wire.digits_range n _ h
  exact absurd this.1 (by decide)

theorem label_line {label : String} (h : (10 : UInt8) ∉ str label) {v : Bytes} (hv : (10 : UInt8) ∉ v) (t : Bytes) :
    lines (dumpLine label v ++ t) = (str label ++ v) :: lines t := by
  have : dumpLine label v ++ t = (str label ++ v) ++ 10 :: t := by
    simp only [dumpLine, Wire.chars, str, List.append_assoc, List.cons_append, List.nil_append]
  rw [this, lines_append (by rw [List.mem_append]; exact not_or.2 ⟨h, hv⟩)]

/-- The lines of the report. -/
theorem dumpText_lines {mb : Nat → Bytes} (hmb : ∀ k, (10 : UInt8) ∉ mb k) {c : NsConf} (hc : OneLine c) :
    ∃ dash rest, lines (dumpText mb c) = (str "[+] -----" ++ dash) ::
      (str "[+] name        : " ++ c.name) ::
      (str "[+] password    : " ++ c.password.getD (str "<no password set>")) ::
      (str "[+] public flag : " ++ str (if c.isPublic then "1" else "0")) ::
      (str "[+] mode worm   : " ++ str (if c.worm then "2" else "0")) ::
      (str "[+] maximum size: " ++ (Resp.digits c.maxsize ++ str " bytes" ++ (str " (" ++ mb c.maxsize ++ str " MB)"))) :: rest ∧
      dash.length = 35 := by
  have h0 : Wire.chars "[+] ----------------------------------------\n" = str "[+] -----" ++ List.replicate 35 45 ++ [10] := by
    decide +kernel
  have hpw : (10 : UInt8) ∉ c.password.getD (str "<no password set>") := by
    cases hp : c.password with
    | none => rw [Option.getD_none]; decide +kernel
    | some p => exact hc.2 p hp
  have hpub : decBytes (if c.isPublic then 1 else 0) = str (if c.isPublic then "1" else "0") := by
    cases c.isPublic <;> decide +kernel
  have hworm : decBytes (if c.worm then 2 else 0) = str (if c.worm then "2" else "0") := by
    cases c.worm <;> decide +kernel
  have hsz : decBytes c.maxsize ++ Wire.chars " bytes (" ++ mb c.maxsize ++ Wire.chars " MB)" =
      Resp.digits c.maxsize ++ str " bytes" ++ (str " (" ++ mb c.maxsize ++ str " MB)") := by
    have : Wire.chars " bytes (" = str " bytes" ++ str " (" := by decide +kernel
    rw [Wire.decBytes_eq, this, show Wire.chars " MB)" = str " MB)" from rfl]
    simp only [List.append_assoc]
  refine ⟨List.replicate 35 45, lines (Wire.chars "[+] -----------------------------------------\n"), ?_, List.length_replicate ..⟩
  rw [dumpText, h0, List.append_assoc _ [10], List.singleton_append, lines_append (by decide +kernel), hpub, hworm, hsz,
    show Wire.chars "<no password set>" = str "<no password set>" from rfl,
    label_line (by decide +kernel) hc.1, label_line (by decide +kernel) hpw,
    label_line (by decide +kernel) (by cases c.isPublic <;> decide +kernel),
    label_line (by decide +kernel) (by cases c.worm <;> decide +kernel),
    label_line (by decide +kernel) ?_]
  simp only [List.mem_append, not_or]
  exact ⟨⟨digits_line _, by decide +kernel⟩, ⟨by decide +kernel, hmb _⟩, by decide +kernel⟩

theorem dash_miss {label : String} {ls : List Bytes} {v : Bytes} (h : (str label).isPrefixOf (str "[+] -----" ++ v) = false) :
    ((str "[+] -----" ++ v) :: ls).findSome? (fun l => if (str label).isPrefixOf l then some (l.drop (str label).length) else none) =
      ls.findSome? (fun l => if (str label).isPrefixOf l then some (l.drop (str label).length) else none) := by
  rw [List.findSome?_cons, if_neg (by rw [h]; decide)]

theorem not_prefix_take {a b v : Bytes} (hl : b.length ≤ a.length) (hne : a.take b.length ≠ b) : a.isPrefixOf (b ++ v) = false := by
  rw [Bool.eq_false_iff]
  intro h
  rw [List.isPrefixOf_iff_prefix] at h
  obtain ⟨t, ht⟩ := h
  apply hne
  have := congrArg (List.take b.length) ht
  rwa [List.take_append_of_le_length hl, List.take_left] at this

theorem dumpText_tells {mb : Nat → Bytes} (hmb : ∀ k, (10 : UInt8) ∉ mb k) {c : NsConf} (hc : OneLine c) :
    Tells (dumpText mb c) c := by
  obtain ⟨dash, rest, h, -⟩ := dumpText_lines hmb hc
  constructor
  · rw [value, h, dash_miss (not_prefix_take (by decide +kernel) (by decide +kernel)), value_hit]
  · rw [value, h, dash_miss (not_prefix_take (by decide +kernel) (by decide +kernel)),
      value_miss (by decide +kernel) (by decide +kernel), value_hit]
  · rw [value, h, dash_miss (not_prefix_take (by decide +kernel) (by decide +kernel)),
      value_miss (by decide +kernel) (by decide +kernel), value_miss (by decide +kernel) (by decide +kernel), value_hit]
  · rw [value, h, dash_miss (not_prefix_take (by decide +kernel) (by decide +kernel)),
      value_miss (by decide +kernel) (by decide +kernel), value_miss (by decide +kernel) (by decide +kernel),
      value_miss (by decide +kernel) (by decide +kernel), value_hit]
  · refine ⟨str " (" ++ mb c.maxsize ++ str " MB)", ?_⟩
    rw [value, h, dash_miss (not_prefix_take (by decide +kernel) (by decide +kernel)),
      value_miss (by decide +kernel) (by decide +kernel), value_miss (by decide +kernel) (by decide +kernel),
      value_miss (by decide +kernel) (by decide +kernel), value_miss (by decide +kernel) (by decide +kernel), value_hit]

end Zdb.NsDump
