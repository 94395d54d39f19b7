/-
Scans, HISTORY, and the commands on the system: memory is as before but for the replies that wait.
-/
import Verif.Lemmas.HeapCmd
namespace Zdb.Heap

section
variable {l : Level} {M : Mem} {o : Own} {q : List Resp} {β : Type} {Q : β → Mem → Prop} {c : Client} {sp : Space}
  {s : Srv}

theorem wp_scanLoop {k : Option Nat → Prog β} (h : Holds l o M) (asp : SA o sp)
    (hn : ∀ M, Holds l o M → wp l (k none) Q M) (hs : ∀ b M, Holds l (one b + o) M → wp l (k (some b)) Q M) :
    ∀ n, wp l (scanLoop sp n >>= k) Q M := by
  intro n
  induction n generalizing M with
  | zero => exact wp_die
  | succ n ih =>
    rw [wp_bind]
    unfold scanLoop
    refine wp_useb h asp.iroot ?_
    as a
    br
    · exact hn M h
    refine wp_bind.2 ?_
    unfold scanReal
    as a
    split
    · exact hn M h
    · have := wp_bind.1 (ih h)
      exact this
    · al b
      us
      as a
      br
      · exact hs b M h
      · refine wp_call (P := fun _ M => Holds l o M) ?_ ?_
        · unfold scanError
          apply wp_tail
          fr
          exact h.re (by own)
        · exact fun _ M h => hn M h

theorem wp_deserialize {k : Option Nat → Prog β} (h : Holds l o M) (asp : SA o sp)
    (hn : ∀ M, Holds l o M → wp l (k none) Q M) (hs : ∀ b M, Holds l (one b + o) M → wp l (k (some b)) Q M) :
    wp l (deserialize sp >>= k) Q M := by
  rw [wp_bind]
  unfold deserialize
  as a
  br
  · exact hn M h
  refine wp_itemGetDisk h asp (fun M h => hn M h) fun b M h => ?_
  us
  as a
  br
  · fr
    exact hn M (h.re (by own))
  al e
  us
  us
  fr
  exact hs e M (h.re (by own))

/-- What a list of scanned headers owns. -/
def ScanList.own (r : ScanList) : Own := cnt (r.items.toList ++ r.infos.toList ++ r.heads)

/-- A list with headers has arrays for them. -/
def ScanList.Ok (r : ScanList) : Prop := r.heads.length ≤ r.room ∧ (0 < r.room → r.items.isSome ∧ r.infos.isSome)

theorem wp_scanAppend {k : ScanList → Prog β} {r : ScanList} {b : Nat} (hr : r.Ok)
    (h : Holds l (one b + (r.own + o)) M)
    (hk : ∀ r' M, r'.Ok → r'.heads ≠ [] → Holds l (r'.own + o) M → wp l (k r') Q M) :
    wp l (scanAppend r b >>= k) Q M := by
  obtain ⟨items, infos, heads, room⟩ := r
  rw [wp_bind]
  unfold scanAppend
  have key : ∀ (items infos room) (M : Mem), heads.length + 1 ≤ room →
      Holds l (one b + (ScanList.own ⟨some items, some infos, heads, room⟩ + o)) M →
      wp l (do
        use (some items)
        use (some infos)
        pure (⟨some items, some infos, heads ++ [b], room⟩ : ScanList))
        (fun r M => wp l (k r) Q M) M := by
    intro items infos room M hl h
    have h1 : ScanList.own ⟨some items, some infos, heads, room⟩ = one items + (one infos + cnt heads) :=
      own_ext fun x => by simp only [ScanList.own]; owna
    rw [h1] at h
    us
    us
    refine hk _ M ⟨by simpa using hl, by simp⟩ (by simp) (h.re fun x => ?_)
    simp only [ScanList.own]
    owna
  br
  · refine wp_reallocp h ?_ fun i M h => ?_
    · intro b' hb'
      cases hb'
      simp only [ScanList.own]
      owna
    refine wp_reallocp h ?_ fun n M h => ?_
    · intro b' hb'
      simp only at hb'
      subst hb'
      simp only [ScanList.own]
      owna
    refine key i n (room + 32) M (by have := hr.1; simp only at this ⊢; omega) (h.re fun x => ?_)
    simp only [ScanList.own]
    owna
  · simp only at hi
    have hpos : 0 < room := by omega
    obtain ⟨h1, h2⟩ := hr.2 hpos
    obtain ⟨i, hi1⟩ := Option.isSome_iff_exists.1 h1
    obtain ⟨n, hn1⟩ := Option.isSome_iff_exists.1 h2
    simp only at hi1 hn1
    subst hi1 hn1
    exact key i n room M (by omega) h

theorem wp_each {α : Type} {f : α → Prog Unit} {k : Unit → Prog β} (P : List α → Mem → Prop)
    (hf : ∀ a as M, P (a :: as) M → wp l (f a) (fun _ M => P as M) M) (hk : ∀ M, P [] M → wp l (k ()) Q M) :
    ∀ as M, P as M → wp l (each f as >>= k) Q M := by
  intro as
  induction as with
  | nil => intro M h; exact hk M h
  | cons a as ih =>
    intro M h
    rw [wp_bind]
    unfold each
    exact wp_call (hf a as M h) fun _ M h => wp_bind.1 (ih M h)

theorem wp_scanFree {k : Unit → Prog β} {r : ScanList} (h : Holds l (r.own + o) M)
    (hk : ∀ M, Holds l o M → wp l (k ()) Q M) : wp l (scanFree r >>= k) Q M := by
  rw [wp_bind]
  unfold scanFree
  refine wp_each (fun hs M => Holds l (cnt hs + (cnt (r.items.toList ++ r.infos.toList) + o)) M) ?_ ?_ _ _
    (h.re fun x => by simp only [ScanList.own]; owna)
  · intro a as M h
    apply wp_tail
    fr
    exact h.re (by own)
  · intro M h
    refine wp_free h (fun b hb => by rw [hb]; owna) fun M h => ?_
    apply wp_tail
    refine wp_free h (fun b hb => by rw [hb]; owna) fun M h => ?_
    exact hk M (h.re (by own))

theorem wp_scanMany {k : ScanList → Prog β} (asp : SA o sp)
    (hk : ∀ r' M, r'.Ok → Holds l (r'.own + o) M → wp l (k r') Q M) :
    ∀ n (r : ScanList) (M : Mem), r.Ok → Holds l (r.own + o) M → wp l (scanMany sp n r >>= k) Q M := by
  intro n
  induction n with
  | zero => intro r M hr h; exact hk r M hr h
  | succ n ih =>
    intro r M hr h
    rw [wp_bind]
    unfold scanMany
    as fuel
    refine wp_scanLoop h (asp.mono (by own)) ?_ ?_ _
    · intro M h
      exact hk r M hr h
    · intro b M h
      us
      refine wp_scanAppend hr h fun r' M hr' _ h => ?_
      exact wp_bind.1 (ih r' M hr' h)

theorem wp_scanSend {r : ScanList} (hr : r.Ok) (h : Holds l (r.own + o) M) (aq : Av o (respBlocks q)) :
    wp l (scanSend r q) (Ext l (r.own + o) q) M := by
  unfold scanSend
  br
  · exact wp_replyStack h (aq.mono (by own))
  have hpos : 0 < r.room := by
    have := hr.1
    have h2 : r.heads ≠ [] := by simpa using hi
    have := List.length_pos_iff.2 h2
    omega
  obtain ⟨h1, h2⟩ := hr.2 hpos
  obtain ⟨i, hi1⟩ := Option.isSome_iff_exists.1 h1
  obtain ⟨n, hn1⟩ := Option.isSome_iff_exists.1 h2
  have e : r.own = one i + (one n + cnt r.heads) :=
    own_ext fun x => by simp only [ScanList.own, hi1, hn1]; owna
  rw [e] at h ⊢
  al b
  rw [hi1, hn1]
  us
  us
  refine wp_each (fun hs M' => M' = M ∧ ∀ x ∈ hs, x ∈ r.heads) ?_ ?_ _ M ⟨rfl, fun x hx => hx⟩
  · rintro a as M' ⟨rfl, hs⟩
    apply wp_tail
    refine wp_useb h ?_ ⟨rfl, fun x hx => hs x (List.mem_cons_of_mem _ hx)⟩
    have : 1 ≤ cnt r.heads a := List.count_pos_iff.2 (hs a (List.mem_cons_self ..))
    owna
  · rintro M' ⟨rfl, -⟩
    us
    exact wp_replyHeap h (aq.mono (by own))

theorem scan_ok : ScanList.Ok ⟨none, none, [], 0⟩ := ⟨by simp, by simp⟩

theorem scan_own (x : Nat) : ScanList.own ⟨none, none, [], 0⟩ x = 0 := rfl

theorem wp_cmdScan (h : Holds l o M) (hc : Req c) (ac : Av o c.reqBlocks) (asp : SA o sp) (hz : 0 < c.argc)
    (aq : Av o (respBlocks q)) : wp l (cmdScan c sp q) (Ext l o q) M := by
  unfold cmdScan
  ck
  have fin : ∀ n r (M : Mem), r.Ok → Holds l (r.own + o) M → wp l (do
      let l ← scanMany sp n r
      let q ← scanSend l q
      scanFree l
      pure q) (Ext l o q) M := by
    intro n r M hr h
    refine wp_scanMany asp (fun r M hr h => ?_) n r M hr h
    refine wp_call (wp_scanSend hr h aq) ?_
    rintro q' M ⟨e, rfl, h⟩
    refine wp_scanFree (o := rs e + o) (h.re (by own)) fun M h => ?_
    exact ⟨e, rfl, h⟩
  br
  · as fuel
    refine wp_scanLoop h asp (fun M h => ?_) (fun b M h => ?_) _
    · rp
    · refine wp_scanAppend scan_ok (o := o) (h.re fun x => by simp only [add_ap, scan_own]; omega) fun r M hr _ h => ?_
      as n
      exact fin n r M hr h
  · ar
    ck
    refine wp_deserialize h asp (fun M h => ?_) (fun b M h => ?_)
    · rp
    · us
      fr
      as n
      exact fin n _ M scan_ok (h.re fun x => by simp only [add_ap, sub_ap, scan_own]; omega)

theorem wp_kscanFill {k : Option Nat → Prog β} (hk : ∀ p M, Holds l (cnt p.toList + o) M → wp l (k p) Q M) :
    ∀ n (p : Option Nat) (M : Mem), Holds l (cnt p.toList + o) M → wp l (kscanFill n p >>= k) Q M := by
  intro n
  induction n with
  | zero => intro p M h; exact hk p M h
  | succ n ih =>
    intro p M h
    rw [wp_bind]
    unfold kscanFill
    as a
    br
    · exact wp_bind.1 (ih p M h)
    · refine wp_reallocp h (fun b hb => by rw [hb]; owna) fun b M h => ?_
      exact wp_bind.1 (ih (some b) M (h.re (by own)))

theorem wp_cmdKscan (h : Holds l o M) (hc : Req c) (ac : Av o c.reqBlocks) (asp : SA o sp)
    (aq : Av o (respBlocks q)) : wp l (cmdKscan c sp q) (Ext l o q) M := by
  unfold cmdKscan
  refine wp_useb h asp.iroot ?_
  br
  · rp
  va
  ar
  as n
  refine wp_kscanFill (o := o) (fun p M h => ?_) n none M (h.re (by own))
  as a
  have fin : ∀ q' M, Ext l (cnt p.toList + o) q q' M → wp l (do
      free p
      pure q') (Ext l o q) M := by
    rintro q' M ⟨e, rfl, h⟩
    refine wp_free h (fun b hb => by rw [hb]; owna) fun M h => ?_
    exact ⟨e, rfl, h.re (by own)⟩
  br
  · exact wp_call (wp_replyStack h (aq.mono (by own))) fin
  · al b
    us
    exact wp_call (wp_replyHeap h (aq.mono (by own))) fin

theorem wp_historySend {i : Nat} (h : Holds l (one i + o) M) (asp : SA o sp) (aq : Av o (respBlocks q)) :
    wp l (historySend sp (some i) q) (Ext l o q) M := by
  unfold historySend
  us
  refine wp_dataGet h (asp.mono (by own)) (fun M h => ?_) (fun b M h => ?_)
  · refine wp_call (wp_replyStack h (aq.mono (by own))) ?_
    rintro q' M ⟨e, rfl, h⟩
    refine wp_free_none ?_
    refine wp_lose h (by owna) fun M h => ?_
    exact ⟨e, rfl, h.re (by own)⟩
  · us
    refine wp_bind.2 ?_
    unfold historyArray
    al r
    us
    us
    refine wp_call (wp_replyStack h (aq.mono (by own))) ?_
    rintro q' M ⟨e, rfl, h⟩
    fr
    refine wp_pure ?_
    fr
    fr
    exact ⟨e, rfl, h.re (by own)⟩

theorem wp_cmdHistory (hl : l ≠ .any) (h : Holds l o M) (hc : Req c) (ac : Av o c.reqBlocks) (asp : SA o sp)
    (ag : GA o s) (aq : Av o (respBlocks q)) : wp l (cmdHistory s c sp q) (Ext l o q) M := by
  unfold cmdHistory
  br
  · rp
  ck
  have hi2 := hi
  br
  · ar
    refine wp_indexGet h asp ag ?_
    clear h
    intro b M h
    br
    · rp
    refine wp_itemGetDisk h asp (fun M h => ?_) (fun b M h => ?_)
    · exact wp_hazard hl
    · exact wp_historySend h asp aq
  · ar
    ck
    ar
    refine wp_itemGetDisk h asp (fun M h => ?_) (fun b M h => ?_)
    · rp
    · us
      as a
      br
      · fr
        exact (wp_replyStack (o := o) (h.re (by own)) aq)
      · exact wp_historySend h asp aq

theorem wp_cmdText (h : Holds l o M) (asp : SA o sp) (aq : Av o (respBlocks q)) :
    wp l (cmdText sp q) (Ext l o q) M := by
  unfold cmdText
  refine wp_useb h asp.iroot ?_
  rp

theorem wp_cmdInfo (h : Holds l o M) (aq : Av o (respBlocks q)) : wp l (cmdInfo q) (Ext l o q) M := by
  unfold cmdInfo
  refine wp_bulk h fun r M h => ?_
  refine wp_call (wp_replyStack h (aq.mono (by own))) ?_
  rintro q' M ⟨e, rfl, h⟩
  fr
  exact ⟨e, rfl, h.re (by own)⟩

theorem wp_cmdHooks (h : Holds l o M) (aq : Av o (respBlocks q)) : wp l (cmdHooks q) (Ext l o q) M := by
  unfold cmdHooks
  ck
  al b
  us
  exact wp_replyHeap h aq

theorem wp_cmdIndex (h : Holds l o M) (hc : Req c) (ac : Av o c.reqBlocks) (asp : SA o sp)
    (aq : Av o (respBlocks q)) : wp l (cmdIndex c sp q) (Ext l o q) M := by
  unfold cmdIndex
  ck
  refine wp_validateMin h hc ac aq (fun hn => ?_) (fun q' M' h' => h')
  simp only [Bool.not_true, Bool.false_eq_true, if_false]
  ar
  have h1 := asp.iroot
  have h2 := asp.dirty
  as a
  br
  · rp
  br
  · ar
    as a
    br
    · us
      us
      rp
    · rp
  · us
    al b
    us
    al r
    us
    us
    refine wp_call (wp_replyHeap (o := one b + o) h (aq.mono (by own))) ?_
    rintro q' M ⟨e, rfl, h⟩
    fr
    exact ⟨e, rfl, h.re (by own)⟩

theorem wp_dataRawGet {k : Raw → Prog β} (h : Holds l o M) (asp : SA o sp)
    (he : ∀ M, Holds l o M → wp l (k .error) Q M) (hn : wp l (k (.got none none)) Q M)
    (hs : ∀ a b M, Holds l (one a + (one b + o)) M → wp l (k (.got (some a) (some b))) Q M) :
    wp l (dataRawGet sp >>= k) Q M := by
  rw [wp_bind]
  unfold dataRawGet
  refine wp_useb h asp.droot ?_
  as a
  br
  · exact hn
  as a
  br
  · exact wp_free_none (wp_free_none (he M h))
  al i
  as a
  br
  · fr
    exact wp_free_none (he M (h.re (by own)))
  al b
  as a
  br
  · fr
    fr
    exact he M (h.re (by own))
  · exact hs i b M (h.re (by own))

theorem wp_cmdData (h : Holds l o M) (hc : Req c) (ac : Av o c.reqBlocks) (asp : SA o sp)
    (aq : Av o (respBlocks q)) : wp l (cmdData c sp q) (Ext l o q) M := by
  unfold cmdData
  ck
  refine wp_validateMin h hc ac aq (fun hn => ?_) (fun q' M' h' => h')
  simp only [Bool.not_true, Bool.false_eq_true, if_false]
  ar
  as a
  br
  · rp
  refine wp_validateMin h hc ac aq (fun hn => ?_) (fun q' M' h' => h')
  simp only [Bool.not_true, Bool.false_eq_true, if_false]
  ar
  al t
  us
  fr
  ar
  al t
  us
  fr
  replace h : Holds l o M := h.re (by own)
  refine wp_dataRawGet h asp (fun M h => ?_) ?_ (fun a b M h => ?_)
  · rp
  · as v
    br
    · exact wp_free_none (wp_free_none (wp_replyStack h aq))
    · exact absurd (.inr rfl) hi
  · as v
    br
    · fr
      fr
      exact wp_replyStack (o := o) (h.re (by own)) aq
    · al r
      us
      us
      us
      fr
      fr
      exact wp_replyHeap (h.re (by own)) aq

theorem wp_nsinfo (h : Holds l o M) (asp : SA o sp) (aq : Av o (respBlocks q)) :
    wp l (nsinfo sp q) (Ext l o q) M := by
  unfold nsinfo
  obtain ⟨h1, h2, h3, h4, h5, h6, h7, h8, h9, -, -, -⟩ := asp
  al i
  us
  us
  us
  us
  us
  us
  us
  refine wp_bulk h fun r M h => ?_
  refine wp_call (wp_replyStack h (aq.mono (by own))) ?_
  rintro q' M ⟨e, rfl, h⟩
  fr
  fr
  exact ⟨e, rfl, h.re (by own)⟩

end

end Zdb.Heap
