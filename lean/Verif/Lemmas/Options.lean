/-
Reading the command line.
-/
import Verif.Spec.Options
import Verif.Lemmas.Editor
namespace Zdb.Options

/-! ### names -/

theorem filter_only {α : Type} {t : List α} {p : α → Bool} {o : α} (hn : t.Nodup) (ho : o ∈ t) (hp : ∀ x ∈ t, p x = true ↔ x = o) :
    t.filter p = [o] := by
  induction t with
  | nil => cases ho
  | cons a t ih =>
    rw [List.nodup_cons] at hn
    by_cases ha : a = o
    · subst ha
      rw [List.filter_cons_of_pos ((hp a (by simp)).2 rfl)]
      congr 1
      rw [List.filter_eq_nil_iff]
      intro x hx h
      have := (hp x (List.mem_cons_of_mem _ hx)).1 h
      subst this
      exact hn.1 hx
    · rw [List.filter_cons_of_neg (fun h => ha ((hp a (by simp)).1 h))]
      have hot : o ∈ t := by
        cases ho with
        | head => exact absurd rfl ha
        | tail _ h => exact h
      exact ih hn.2 hot (fun x hx => hp x (List.mem_cons_of_mem _ hx))

variable {α : Type} {t : List (LongOpt α)}

/-- All names differ. -/
def Distinct (t : List (LongOpt α)) : Prop := (t.map (·.name)).Nodup

theorem Distinct.eq (h : Distinct t) {a b : LongOpt α} (ha : a ∈ t) (hb : b ∈ t) (he : a.name = b.name) : a = b := by
  unfold Distinct at h
  induction t with
  | nil => cases ha
  | cons x t ih =>
    rw [List.map_cons, List.nodup_cons] at h
    cases ha with
    | head =>
      cases hb with
      | head => rfl
      | tail _ hb => exact absurd (he ▸ List.mem_map_of_mem hb) h.1
    | tail _ ha =>
      cases hb with
      | head => exact absurd (he ▸ List.mem_map_of_mem ha) h.1
      | tail _ hb => exact ih h.2 ha hb

theorem Distinct.nodup (h : Distinct t) : t.Nodup := by
  unfold Distinct at h
  induction t with
  | nil => exact List.nodup_nil
  | cons x t ih =>
    rw [List.map_cons, List.nodup_cons] at h
    exact List.nodup_cons.2 ⟨fun hx => h.1 (List.mem_map_of_mem hx), ih h.2⟩

theorem findOpt_exact (h : Distinct t) {o : LongOpt α} (ho : o ∈ t) : findOpt t o.name = some o := by
  unfold findOpt
  cases hf : t.find? (fun p => p.name == o.name) with
  | none =>
    rw [List.find?_eq_none] at hf
    exact absurd (beq_self_eq_true o.name) (hf o ho)
  | some p =>
    have h1 := List.find?_some hf
    have h2 := List.mem_of_find?_eq_some hf
    dsimp only
    rw [h.eq h2 ho (eq_of_beq h1)]

theorem findOpt_short (h : Distinct t) {o : LongOpt α} (ho : o ∈ t) {used : Bytes} (hp : used <+: o.name)
    (hu : ∀ p ∈ t, used <+: p.name → p.name = o.name) : findOpt t used = some o := by
  unfold findOpt
  cases hf : t.find? (fun p => p.name == used) with
  | some p =>
    have h0 := List.find?_some hf
    have h1 : p.name = used := eq_of_beq h0
    have h2 := List.mem_of_find?_eq_some hf
    dsimp only
    rw [h.eq h2 ho (hu p h2 (h1 ▸ List.prefix_refl _))]
  | none =>
    dsimp only
    rw [filter_only h.nodup ho]
    intro x hx
    rw [List.isPrefixOf_iff_prefix]
    exact ⟨fun hpx => h.eq hx ho (hu x hx hpx), fun e => e ▸ hp⟩

theorem findOpt_none {used : Bytes}
    (hu : ∀ o ∈ t, used ≠ o.name ∧ (used <+: o.name → ∃ p ∈ t, p.name ≠ o.name ∧ used <+: p.name)) :
    findOpt t used = none := by
  unfold findOpt
  have hf : t.find? (fun p => p.name == used) = none := by
    rw [List.find?_eq_none]
    intro x hx he
    exact (hu x hx).1 (eq_of_beq he).symm
  rw [hf]
  dsimp only
  split
  · rename_i o he
    have ho : o ∈ t.filter (fun o => used.isPrefixOf o.name) := by rw [he]; simp
    rw [List.mem_filter] at ho
    obtain ⟨p, h1, h2, h3⟩ := (hu o ho.1).2 (List.isPrefixOf_iff_prefix.1 ho.2)
    have hp : p ∈ t.filter (fun o => used.isPrefixOf o.name) := by
      rw [List.mem_filter]; exact ⟨h1, List.isPrefixOf_iff_prefix.2 h3⟩
    rw [he, List.mem_singleton] at hp
    exact absurd (congrArg LongOpt.name hp) h2
  · rfl

/-! ### words -/

/-- A name as it can stand in a word: not empty, no dash in front, no `=`. -/
def Sound (used : Bytes) : Prop := used ≠ [] ∧ used.head? ≠ some 45 ∧ 61 ∉ used

def dashes (two : Bool) : Bytes := if two then [45, 45] else [45]

theorem undash_dashes (two : Bool) {used : Bytes} (h : Sound used) (r : Bytes) : undash (dashes two ++ used ++ r) = used ++ r := by
  obtain ⟨h1, h2, _⟩ := h
  cases used with
  | nil => exact absurd rfl h1
  | cons b u =>
    have hb : b ≠ 45 := fun e => h2 (by rw [e]; rfl)
    cases two
    · show undash (45 :: b :: (u ++ r)) = _
      unfold undash
      split
      · rename_i h; injection h with _ h; injection h with h _; exact absurd h hb
      · rename_i h; injection h with _ h; rw [← h]; rfl
      · rename_i h; exact (h _ rfl).elim
    · rfl

theorem takeWhile_name {used : Bytes} (h : 61 ∉ used) (r : Bytes) (hr : r = [] ∨ ∃ v, r = 61 :: v) :
    (used ++ r).takeWhile (· ≠ 61) = used ∧ (used ++ r).dropWhile (· ≠ 61) = r := by
  induction used with
  | nil =>
    rcases hr with rfl | ⟨v, rfl⟩
    · exact ⟨rfl, rfl⟩
    · exact ⟨by simp, by simp⟩
  | cons b u ih =>
    have hb : b ≠ 61 := fun e => h (by rw [e]; simp)
    have := ih (fun hm => h (List.mem_cons_of_mem _ hm))
    constructor
    · rw [List.cons_append, List.takeWhile_cons_of_pos (by simpa using hb), this.1]
    · rw [List.cons_append, List.dropWhile_cons_of_pos (by simpa using hb), this.2]

theorem getopt_plain {w : Bytes} (h : w.head? ≠ some 45 ∨ w = [45]) (ws : List Bytes) : getopt t (w :: ws) = getopt t ws := by
  have hne : w ≠ [45, 45] := by
    rintro rfl
    rcases h with h | h
    · exact h rfl
    · cases h
  rw [getopt, if_neg hne, if_pos h]

/-- A word that is an option. -/
theorem getopt_word (two : Bool) {used : Bytes} (h : Sound used) {r : Bytes} (hr : r = [] ∨ ∃ v, r = 61 :: v) (ws : List Bytes) :
    getopt t ((dashes two ++ used ++ r) :: ws) =
      match findOpt t used with
      | none => .bad :: getopt t ws
      | some o =>
        match o.arg, r with
        | true, _ :: v => .opt o.val v :: getopt t ws
        | false, _ :: _ => .bad :: getopt t ws
        | false, [] => .opt o.val [] :: getopt t ws
        | true, [] =>
          match ws with
          | [] => [.bad]
          | v :: ws => .opt o.val v :: getopt t ws := by
  have hh : (dashes two ++ used ++ r).head? = some 45 := by cases two <;> rfl
  have hu : undash (dashes two ++ used ++ r) = used ++ r := undash_dashes two h r
  have hw := takeWhile_name h.2.2 r hr
  have h1 : dashes two ++ used ++ r ≠ [45, 45] := by
    intro e
    rw [e] at hu
    have : used ++ r = [] := hu.symm
    exact h.1 (List.append_eq_nil_iff.1 this).1
  have h2 : ¬ ((dashes two ++ used ++ r).head? ≠ some 45 ∨ dashes two ++ used ++ r = [45]) := by
    rintro (e | e)
    · exact e hh
    · rw [e] at hu
      have : used ++ r = [] := hu.symm
      exact h.1 (List.append_eq_nil_iff.1 this).1
  rw [getopt, if_neg h1, if_neg h2]
  dsimp only
  rw [hu, hw.1, hw.2]
  cases findOpt t used with
  | none => rfl
  | some o =>
    obtain ⟨n, a, v⟩ := o
    cases a <;> cases r <;> cases ws <;> rfl

theorem getopt_spell (two joined : Bool) {used : Bytes} (h : Sound used) {o : LongOpt α} (ho : findOpt t used = some o)
    {value : Option Bytes} (hv : value.isSome = o.arg) (ws : List Bytes) :
    getopt t (spell two joined used value ++ ws) = .opt o.val (value.getD []) :: getopt t ws := by
  have hd : ∀ r : Bytes, (if two then [45, 45] else [45]) ++ used ++ r = dashes two ++ used ++ r := fun _ => rfl
  unfold spell
  cases value with
  | none =>
    have ha : o.arg = false := by rw [← hv]; rfl
    have := getopt_word (t := t) two h (r := []) (.inl rfl) ws
    rw [List.append_nil, ho] at this
    dsimp only at this
    rw [ha] at this
    exact this
  | some v =>
    have ha : o.arg = true := by rw [← hv]; rfl
    cases joined
    · have := getopt_word (t := t) two h (r := []) (.inl rfl) (v :: ws)
      rw [List.append_nil, ho] at this
      dsimp only at this
      rw [ha] at this
      exact this
    · have := getopt_word (t := t) two h (r := 61 :: v) (.inr ⟨v, rfl⟩) ws
      rw [ho] at this
      dsimp only at this
      rw [ha] at this
      exact this

/-! ### the table -/

theorem distinct : Distinct longOptions := by unfold Distinct; decide +kernel

theorem names_eq : names = longOptions.map (fun o => (o.name, o.arg)) := by decide +kernel

theorem names_sound : ∀ o ∈ names, o.1 ≠ [] ∧ 61 ∉ o.1 ∧ 45 ∉ o.1 := by decide +kernel

theorem mem_names {o : Bytes × Bool} (h : o ∈ names) : ∃ p ∈ longOptions, p.name = o.1 ∧ p.arg = o.2 := by
  rw [names_eq, List.mem_map] at h
  obtain ⟨p, hp, he⟩ := h
  exact ⟨p, hp, by rw [← he], by rw [← he]⟩

theorem two_names : ∀ b : UInt8, ∃ o ∈ names, ¬ [] = o.1 := fun _ => ⟨(text "data", true), by decide +kernel, by decide +kernel⟩

theorem Spells.prefix {used name : Bytes} (h : Spells used name) : used <+: name := by
  rcases h with rfl | h
  · exact List.prefix_refl _
  · exact h.1

theorem Spells.sound {used name : Bytes} {arg : Bool} (h : Spells used name) (hm : (name, arg) ∈ names) : Sound used := by
  have hs := names_sound _ hm
  have hp := h.prefix
  refine ⟨?_, ?_, fun hx => hs.2.1 (hp.subset hx)⟩
  · rintro rfl
    rcases h with h | h
    · exact hs.1 h.symm
    · have h1 := h.2 (text "data", true) (by decide +kernel) List.nil_prefix
      have h2 := h.2 (text "index", true) (by decide +kernel) List.nil_prefix
      exact absurd (h1.trans h2.symm) (by decide +kernel)
  · intro e
    cases used with
    | nil => cases e
    | cons b u =>
      injection e with e
      subst e
      exact hs.2.2 (hp.subset (by simp))

theorem Spells.find {used : Bytes} {o : LongOpt Key} (h : Spells used o.name) (ho : o ∈ longOptions) :
    findOpt longOptions used = some o := by
  rcases h with rfl | h
  · exact findOpt_exact distinct ho
  · refine findOpt_short distinct ho h.1 (fun p hp hpre => h.2 (p.name, p.arg) ?_ hpre)
    rw [names_eq]
    exact List.mem_map_of_mem (f := fun o : LongOpt Key => (o.name, o.arg)) hp

theorem NoName.find {used : Bytes} (h : NoName used) : findOpt longOptions used = none := by
  apply findOpt_none
  intro o ho
  have hm : (o.name, o.arg) ∈ names := by
    rw [names_eq]; exact List.mem_map_of_mem (f := fun o : LongOpt Key => (o.name, o.arg)) ho
  refine ⟨(h _ hm).1, fun hp => ?_⟩
  obtain ⟨p, hp, h1, h2⟩ := (h _ hm).2 hp
  obtain ⟨q, hq, e, _⟩ := mem_names hp
  exact ⟨q, hq, by rw [e]; exact h1, by rw [e]; exact h2⟩

/-- The option of an ask. -/
def Ask.key : Ask → Key
  | .data _ => .data | .index _ => .index | .listen _ => .listen | .port _ => .port | .socket _ => .socket | .dualnet => .dualnet
  | .verbose => .verbose | .sync => .sync | .synctime _ => .synctime | .dump => .dump | .mode _ => .mode
  | .background => .background | .logfile _ => .logfile | .admin _ => .admin | .hook _ => .hook | .datasize _ _ => .datasize
  | .maxsize _ => .maxsize | .protect => .protect | .secure => .secure | .rotate _ => .rotate

theorem Ask.entry (a : Ask) : (⟨a.name, a.value.isSome, a.key⟩ : LongOpt Key) ∈ longOptions := by
  cases a <;> try (simp [Ask.name, Ask.value, Ask.key, longOptions])
  all_goals (rename_i m; cases m <;> simp)

theorem Ask.mem_names (a : Ask) : (a.name, a.value.isSome) ∈ names := by
  rw [names_eq]; exact List.mem_map_of_mem (f := fun o : LongOpt Key => (o.name, o.arg)) a.entry

theorem getopt_ask (two joined : Bool) {used : Bytes} {a : Ask} (h : Spells used a.name) (ws : List Bytes) :
    getopt longOptions (spell two joined used a.value ++ ws) = .opt a.key (a.value.getD []) :: getopt longOptions ws :=
  getopt_spell two joined (h.sound a.mem_names) (h.find (o := ⟨a.name, a.value.isSome, a.key⟩) a.entry) rfl ws

/-! ### values -/

theorem suffixOf_unit (u : Fin 5) : suffixOf (unitText u) = some u.val := by revert u; decide +kernel

theorem humanSize_number {ld : Bytes → StrTold} (hld : ReadsNumbers ld) {n : Nat} {u : Fin 5} (h : n * 1024 ^ u.val < 2 ^ 64) :
    humanSize ld (Resp.digits n ++ unitText u) = .ok (n * 1024 ^ u.val) := by
  have hpos : 1 ≤ 1024 ^ u.val := Nat.one_le_pow _ _ (by decide)
  have hn : n < 2 ^ 64 := Nat.lt_of_le_of_lt (Nat.le_mul_of_pos_right n hpos) h
  have hne : (unitText u == Resp.digits n ++ unitText u) = false := by
    rw [beq_eq_false_iff_ne]
    intro e
    have := congrArg List.length e
    rw [List.length_append] at this
    exact Resp.digits_ne_nil n (List.length_eq_zero_iff.1 (by omega))
  unfold humanSize
  rw [hld n u hn]
  simp only [hne, Bool.or_false, Bool.false_eq_true, if_false, suffixOf_unit]
  have hp : 2 ^ (10 * u.val) = 1024 ^ u.val := by rw [Nat.pow_mul]
  have : ¬ ((n : Int) < 0) := by omega
  simp only [this, if_false, Int.toNat_natCast, hp, Nat.pow_zero, Nat.div_one, h, if_true]

theorem atoi_number {n : Nat} (h : n < 2 ^ 31) : atoi (Resp.digits n) = n := by
  unfold atoi
  rw [Editor.atoll_digits (by omega)]
  omega

theorem atol_number {n : Nat} (h : n < 2 ^ 63) : (atoll (Resp.digits n) % 2 ^ 64).toNat = n := by
  rw [Editor.atoll_digits h]
  omega

/-! ### settings -/

theorem lastAsk_cons {β : Type} (f : Ask → Option β) (a : Ask) (l : List Ask) :
    lastAsk f (a :: l) = (lastAsk f l).or (f a) := by
  unfold lastAsk
  rw [List.filterMap_cons]
  cases hf : f a with
  | none => simp
  | some b =>
    dsimp only
    rw [List.getLast?_cons]
    cases (List.filterMap f l).getLast? <;> rfl

theorem over_nil (c : Cfg) : over c [] = c := rfl

theorem takeOpt_ask {ld : Bytes → StrTold} (hld : ReadsNumbers ld) (c : Cfg) {a : Ask} (h : a.Ok) :
    takeOpt ld c (.opt a.key (a.value.getD [])) = .go (over c [a]) := by
  cases a
  case datasize n u =>
    unfold Ask.Ok at h
    have hs := humanSize_number hld (n := n) (u := u) (by omega)
    simp only [Ask.key, Ask.value, Option.getD_some, takeOpt, hs]
    rw [if_neg (by omega), if_neg (by omega)]
    rfl
  case mode m => cases m <;> rfl
  case synctime n => simp only [Ask.key, Ask.value, Option.getD_some, takeOpt, atoi_number h]; rfl
  case rotate n => simp only [Ask.key, Ask.value, Option.getD_some, takeOpt, atoi_number h]; rfl
  case maxsize n => simp only [Ask.key, Ask.value, Option.getD_some, takeOpt, atol_number h]; rfl
  all_goals rfl

theorem getD_or' {β : Type} (a b : Option β) (x : β) : (a.or b).getD x = a.getD (b.getD x) := by cases a <;> rfl

theorem over_cons (c : Cfg) (a : Ask) (l : List Ask) : over c (a :: l) = over (over c [a]) l := by
  have h1 : ∀ {β : Type} (f : Ask → Option β), lastAsk f [a] = f a := by
    intro β f; rw [lastAsk_cons]; rfl
  have h2 : ∀ (x : Ask) (b : Bool), (decide (x ∈ a :: l) || b) = (decide (x ∈ l) || (decide (x ∈ [a]) || b)) := by
    intro x b
    by_cases hx : x = a <;> by_cases hy : x ∈ l <;> simp [hx, hy]
  unfold over
  simp only [lastAsk_cons, h2, getD_or', Option.or_assoc]
  rfl

theorem takeAll_says {ld : Bytes → StrTold} (hld : ReadsNumbers ld) {ws : List Bytes} {l : List Ask} (h : Says ws l) (c : Cfg)
    (rest : List Bytes) :
    takeAll ld c (getopt longOptions (ws ++ rest)) = takeAll ld (over c l) (getopt longOptions rest) := by
  induction h generalizing c with
  | nil => rw [over_nil]; rfl
  | plain hp _ ih => rw [List.cons_append, getopt_plain hp, ih]
  | ask two joined hs hok _ ih =>
    rw [List.append_assoc, getopt_ask two joined hs, takeAll, takeOpt_ask hld c hok]
    dsimp only
    rw [ih, ← over_cons]

theorem getopt_end {ws : List Bytes} (h : End ws) : getopt t ws = [] := by
  cases ws with
  | nil => rfl
  | cons w ws => rw [getopt, if_pos (show w = [45, 45] from h)]

theorem usual_eq : usual = defaults := rfl

end Zdb.Options
