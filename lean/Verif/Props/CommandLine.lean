import Verif.Spec.CommandLine
import Mathlib.Data.List.Basic
import Mathlib.Data.List.Induction
import Mathlib.Data.List.TakeWhile
import Mathlib.Tactic.Common
/-! # The command line of the scripts (C110) -/

namespace Verif

/-! ## Pieces -/

theorem splitEq_none {r a : List Char} (h : splitEq r = (a, none)) : a = r ∧ '=' ∉ r := by
  induction r generalizing a with
  | nil => simp only [splitEq, Prod.mk.injEq] at h; exact ⟨h.1.symm, by simp⟩
  | cons c r ih =>
    rw [splitEq] at h
    split at h
    · simp at h
    · next hc =>
      simp only [Prod.mk.injEq] at h
      obtain ⟨e1, e2⟩ := ih (a := (splitEq r).1) (Prod.ext rfl h.2)
      refine ⟨by rw [← h.1, e1], ?_⟩
      simp only [List.mem_cons, not_or]
      exact ⟨fun h => hc h.symm, e2⟩

theorem splitEq_some {r a v : List Char} (h : splitEq r = (a, some v)) : r = a ++ '=' :: v ∧ '=' ∉ a := by
  induction r generalizing a with
  | nil => simp [splitEq] at h
  | cons c r ih =>
    rw [splitEq] at h
    split at h
    · next hc => simp only [Prod.mk.injEq, Option.some.injEq] at h; rw [← h.1, ← h.2, hc]; simp
    · next hc =>
      simp only [Prod.mk.injEq] at h
      obtain ⟨e1, e2⟩ := ih (a := (splitEq r).1) (Prod.ext rfl h.2)
      refine ⟨by rw [← h.1]; simp [← e1], ?_⟩
      rw [← h.1]
      simp only [List.mem_cons, not_or]
      exact ⟨fun h => hc h.symm, e2⟩

theorem splitEq_plain {r : List Char} (h : '=' ∉ r) : splitEq r = (r, none) := by
  induction r with
  | nil => rfl
  | cons c r ih =>
    simp only [List.mem_cons, not_or] at h
    rw [splitEq, if_neg (fun e => h.1 e.symm), ih h.2]

theorem splitEq_eq {a v : List Char} (h : '=' ∉ a) : splitEq (a ++ '=' :: v) = (a, some v) := by
  induction a with
  | nil => simp [splitEq]
  | cons c r ih =>
    simp only [List.mem_cons, not_or] at h
    rw [List.cons_append, splitEq, if_neg (fun e => h.1 e.symm), ih h.2]

theorem prefix_noEq {k : OptKey} {p : List Char} (h : p <+: k.long) : '=' ∉ p := by
  intro hm
  have := h.subset hm
  cases k <;> simp [OptKey.long] at this

theorem shortName_some {c : Char} {k : OptKey} : shortName c = some (some k) ↔ c = k.short := by
  constructor
  · intro h
    unfold shortName at h
    repeat' split at h
    all_goals first | (simp only [Option.some.injEq] at h; subst h; assumption) | exact absurd h (by simp)
  · rintro rfl
    cases k <;> rfl

theorem shortName_help {c : Char} : shortName c = some none ↔ c = 'h' := by
  constructor
  · intro h
    unfold shortName at h
    repeat' split at h
    all_goals first | assumption | exact absurd h (by simp)
  · rintro rfl
    rfl

/-- A non-empty abbreviation names one option. -/
theorem longNames_prefix {k : OptKey} {p : List Char} (hp : p ≠ []) (h : p <+: k.long) : longNames.filter (fun q => p.isPrefixOf q.1) = [(k.long, some k)] := by
  cases p with
  | nil => exact absurd rfl hp
  | cons c p =>
    have h' := List.isPrefixOf_iff_prefix.2 h
    cases k <;> simp only [OptKey.long, List.isPrefixOf, Bool.and_eq_true, beq_iff_eq] at h' <;> obtain ⟨rfl, h'⟩ := h' <;> simp [longNames, OptKey.long, h']

theorem longNames_one {p q : List Char} {k : OptKey} (h : longNames.filter (fun q => p.isPrefixOf q.1) = [(q, some k)]) : p ≠ [] ∧ p <+: k.long := by
  constructor
  · rintro rfl
    simp [longNames] at h
  · have : (q, some k) ∈ longNames.filter (fun q => p.isPrefixOf q.1) := by rw [h]; simp
    obtain ⟨h1, h2⟩ := List.mem_filter.1 this
    have h3 : q = k.long := by
      simp only [longNames, List.mem_cons, Prod.mk.injEq, reduceCtorEq, and_false, Option.some.injEq, List.not_mem_nil, or_false, false_or] at h1
      rcases h1 with ⟨rfl, rfl⟩ | ⟨rfl, rfl⟩ | ⟨rfl, rfl⟩ | ⟨rfl, rfl⟩ <;> rfl
    rw [← h3]
    exact List.isPrefixOf_iff_prefix.1 h2

theorem longNames_nil {p : List Char} : longNames.filter (fun q => p.isPrefixOf q.1) = [] ↔ ¬ (p <+: "help".toList ∨ ∃ k : OptKey, p <+: k.long) := by
  rw [List.filter_eq_nil_iff]
  constructor
  · rintro h (h1 | ⟨k, h1⟩)
    · exact h (['h', 'e', 'l', 'p'], none) (by simp [longNames]) (List.isPrefixOf_iff_prefix.2 h1)
    · exact h (k.long, some k) (by cases k <;> simp [longNames]) (List.isPrefixOf_iff_prefix.2 h1)
  · intro h q hq hp
    refine h ?_
    have hp' := List.isPrefixOf_iff_prefix.1 hp
    simp only [longNames, List.mem_cons, List.not_mem_nil, or_false] at hq
    rcases hq with rfl | rfl | rfl | rfl | rfl
    · exact Or.inl hp'
    · exact Or.inr ⟨.dir, hp'⟩
    · exact Or.inr ⟨.verbose, hp'⟩
    · exact Or.inr ⟨.evaluator, hp'⟩
    · exact Or.inr ⟨.selection, hp'⟩

theorem namesLong_iff {r : List Char} : NamesLong ('-' :: '-' :: r) ↔ ((splitEq r).1 <+: "help".toList ∨ ∃ k : OptKey, (splitEq r).1 <+: k.long) := by
  have hno : ∀ p : List Char, (p <+: "help".toList ∨ ∃ k : OptKey, p <+: k.long) → '=' ∉ p := by
    rintro p (h | ⟨k, h⟩)
    · intro hm
      have := h.subset hm
      simp at this
    · exact prefix_noEq h
  constructor
  · rintro ⟨p, t, (h | h), hp⟩
    · simp only [List.cons.injEq, true_and] at h
      subst h
      rwa [splitEq_plain (hno r hp)]
    · simp only [List.cons.injEq, true_and] at h
      subst h
      rwa [splitEq_eq (hno p hp)]
  · intro h
    cases hs : splitEq r with
    | mk a b =>
      rw [hs] at h
      cases b with
      | none =>
        obtain ⟨rfl, -⟩ := splitEq_none hs
        exact ⟨a, [], Or.inl rfl, h⟩
      | some v =>
        obtain ⟨rfl, -⟩ := splitEq_some hs
        exact ⟨a, v, Or.inr rfl, h⟩

theorem negNumber_iff {r : List Char} : negNumber r = true ↔ NegNumber ('-' :: r) := by
  unfold negNumber
  have hsplit := List.takeWhile_append_dropWhile (p := Char.isDigit) (l := r)
  have htake : ∀ c ∈ r.takeWhile Char.isDigit, c.isDigit = true := fun c hc => List.mem_takeWhile_imp hc
  constructor
  · intro h
    cases hd : r.dropWhile Char.isDigit with
    | nil =>
      rw [hd] at h hsplit
      simp only [List.append_nil] at hsplit
      refine ⟨r, [], ?_, by simp, Or.inl ⟨rfl, by simpa using h⟩⟩
      rw [← hsplit]; exact htake
    | cons c f =>
      rw [hd] at h hsplit
      simp only [Bool.and_eq_true, beq_iff_eq, List.all_eq_true] at h
      obtain ⟨⟨rfl, h1⟩, h2⟩ := h
      exact ⟨_, f, htake, h2, Or.inr ⟨by rw [hsplit], by simpa using h1⟩⟩
  · rintro ⟨d, f, hd, hf, (⟨h, hne⟩ | ⟨h, hne⟩)⟩
    · simp only [List.cons.injEq, true_and] at h
      subst h
      have : r.dropWhile Char.isDigit = [] := List.dropWhile_eq_nil_iff.2 hd
      rw [this]
      simpa using hne
    · simp only [List.cons.injEq, true_and] at h
      subst h
      have : (d ++ '.' :: f).dropWhile Char.isDigit = '.' :: f := by
        rw [List.dropWhile_append_of_pos hd, List.dropWhile_cons_of_neg (by decide)]
      rw [this]
      simp only [beq_self_eq_true, Bool.true_and, Bool.and_eq_true, List.all_eq_true]
      exact ⟨by simpa using hne, hf⟩

/-- Arguments taken for values are exactly the words, unchanged. -/
theorem lexArg_word {a v : List Char} : lexArg a = .word v ↔ v = a ∧ IsWord a := by
  unfold lexArg
  split
  · next r =>
    have hneg : ¬ NegNumber ('-' :: '-' :: r) := by
      rw [← negNumber_iff]
      simp [negNumber]
    have hsh : ¬ NamesShort ('-' :: '-' :: r) := by
      rintro ⟨t, h | ⟨k, h⟩⟩
      · simp at h
      · cases k <;> simp [OptKey.short] at h
    have hw : IsWord ('-' :: '-' :: r) ↔ ' ' ∈ r ∧ ¬ NamesLong ('-' :: '-' :: r) := by
      unfold IsWord
      simp [hneg, hsh]
    rw [hw, namesLong_iff]
    split
    · next q k h =>
      have := (longNames_one h).2
      simp only [reduceCtorEq, false_iff, not_and]
      exact fun _ _ hn => hn (Or.inr ⟨k, this⟩)
    · next h =>
      rw [longNames_nil] at h
      by_cases hs : ' ' ∈ r
      · simp only [hs, if_true, ArgTok.word.injEq, true_and]
        exact ⟨fun e => ⟨e.symm, h⟩, fun e => e.1.symm⟩
      · simp [hs]
    · next h1 h2 =>
      simp only [reduceCtorEq, false_iff, not_and]
      exact fun _ _ hn => h2 (longNames_nil.2 hn)
  · next c r hc =>
    have hc' : c ≠ '-' := fun h => hc h
    have hl : ¬ NamesLong ('-' :: c :: r) := by
      rintro ⟨p, t, h | h, -⟩ <;> simp only [List.cons.injEq, true_and] at h <;> exact hc' h.1
    have hs : NamesShort ('-' :: c :: r) ↔ ∃ x, shortName c = some x := by
      constructor
      · rintro ⟨t, h | ⟨k, h⟩⟩
        · simp only [List.cons.injEq, true_and] at h
          exact ⟨_, shortName_help.2 h.1⟩
        · simp only [List.cons.injEq, true_and] at h
          exact ⟨_, shortName_some.2 h.1⟩
      · rintro ⟨x, h⟩
        cases x with
        | none => exact ⟨r, Or.inl (by rw [shortName_help.1 h])⟩
        | some k => exact ⟨r, Or.inr ⟨k, by rw [shortName_some.1 h]⟩⟩
    have hn : (∃ x, shortName c = some x) → ¬ NegNumber ('-' :: c :: r) := by
      rintro ⟨x, h⟩
      rw [← negNumber_iff]
      have : c.isDigit = false ∧ c ≠ '.' := by
        cases x with
        | none => rw [shortName_help.1 h]; decide
        | some k => rw [shortName_some.1 h]; cases k <;> decide
      simp [negNumber, List.dropWhile_cons_of_neg, this.1, this.2]
    have hw : IsWord ('-' :: c :: r) ↔ NegNumber ('-' :: c :: r) ∨ (' ' ∈ c :: r ∧ ¬ ∃ x, shortName c = some x) := by
      unfold IsWord
      rw [hs]
      simp [hl]
    rw [hw]
    cases hn' : shortName c with
    | none =>
      simp only [negNumber_iff, reduceCtorEq, exists_false, not_false_eq_true, and_true]
      split
      · next h => rw [negNumber_iff] at h; simp only [ArgTok.word.injEq]; exact ⟨fun e => ⟨e.symm, h⟩, fun e => e.1.symm⟩
      · next h => rw [negNumber_iff] at h; simp only [reduceCtorEq, false_iff, not_and]; exact fun _ => h
    | some x =>
      have h1 := hn ⟨x, hn'⟩
      have h2 : ¬ (v = '-' :: c :: r ∧ (NegNumber ('-' :: c :: r) ∨ (' ' ∈ c :: r ∧ ¬ ∃ y, some x = some y))) := by
        rintro ⟨-, h | ⟨-, h⟩⟩
        · exact h1 h
        · exact h ⟨x, rfl⟩
      simp only [h2, iff_false]
      cases x with
      | none => simp
      | some k =>
        simp only
        cases r with
        | nil => simp
        | cons y r => simp only; split <;> simp
  · next h1 h2 =>
    have : IsWord a := by
      cases a with
      | nil => exact Or.inl (by simp)
      | cons x a =>
        by_cases hx : x = '-'
        · subst hx
          cases a with
          | nil => exact Or.inr (Or.inl rfl)
          | cons y a => exact absurd rfl (h2 y a)
        · exact Or.inl (fun t ht => hx (List.cons.inj ht).1)
    simp only [ArgTok.word.injEq, this, and_true]
    exact eq_comm

/-- What an argument taken for an option is. -/
theorem lexArg_opt {a : List Char} {k : OptKey} {w : Option (List Char)} (h : lexArg a = .opt k w) :
    Spelled [a] k w ∧ (w = none → ∀ v, IsWord v → Spelled [a, v] k (some v)) := by
  unfold lexArg at h
  split at h
  · next r =>
    split at h
    · next q k' hf =>
      simp only [ArgTok.opt.injEq] at h
      obtain ⟨rfl, rfl⟩ := h
      obtain ⟨hne, hp⟩ := longNames_one hf
      cases hs : splitEq r with
      | mk b c =>
        rw [hs] at hne hp
        cases c with
        | none =>
          obtain ⟨rfl, -⟩ := splitEq_none hs
          exact ⟨.long k' b hne hp, fun _ v hv => .longArg k' b v hne hp hv⟩
        | some v =>
          obtain ⟨rfl, -⟩ := splitEq_some hs
          exact ⟨.longEq k' b v hne hp, by simp⟩
    · split at h <;> simp at h
    · simp at h
  · next c r hc =>
    cases hn : shortName c with
    | none => rw [hn] at h; simp only at h; split at h <;> simp at h
    | some x =>
      rw [hn] at h
      cases x with
      | none => simp at h
      | some k' =>
        obtain rfl := shortName_some.1 hn
        cases r with
        | nil =>
          simp only [ArgTok.opt.injEq] at h
          obtain ⟨rfl, rfl⟩ := h
          exact ⟨.short k', fun _ v hv => .shortArg k' v hv⟩
        | cons y r =>
          simp only at h
          split at h
          · next hy =>
            simp only [ArgTok.opt.injEq] at h
            obtain ⟨rfl, rfl⟩ := h
            subst hy
            exact ⟨.shortEq k' r, by simp⟩
          · next hy =>
            simp only [ArgTok.opt.injEq] at h
            obtain ⟨rfl, rfl⟩ := h
            exact ⟨.attached k' y r hy, by simp⟩
  · simp at h

theorem lexArg_short {k : OptKey} {r : List Char} : lexArg ('-' :: k.short :: r) = match r with
    | [] => .opt k none
    | x :: v => if x = '=' then .opt k (some v) else .opt k (some (x :: v)) := by
  cases k <;> rfl

theorem lexArg_long {k : OptKey} {p r : List Char} (hp : p ≠ []) (h : p <+: k.long) (hs : (splitEq r).1 = p) : lexArg ('-' :: '-' :: r) = .opt k (splitEq r).2 := by
  have := longNames_prefix hp h
  rw [← hs] at this
  simp only [lexArg, this]

/-- The first argument of an option is read as that option, with the value in it; a value behind it is taken. -/
theorem spelled_tokens {ts : List (List Char)} {k : OptKey} {w : Option (List Char)} (h : Spelled ts k w) :
    ts.map lexArg = [.opt k w] ∨ ∃ v, w = some v ∧ ts.map lexArg = [.opt k none, .word v] := by
  cases h with
  | short => left; simp [lexArg_short]
  | shortArg _ v hv => right; exact ⟨v, rfl, by simp [lexArg_short, lexArg_word.2 ⟨rfl, hv⟩]⟩
  | attached _ c v hc => left; simp [lexArg_short, hc]
  | shortEq _ v => left; simp [lexArg_short]
  | long _ p hp hk => left; simp [lexArg_long hp hk (r := p) (by rw [splitEq_plain (prefix_noEq hk)]), splitEq_plain (prefix_noEq hk)]
  | longArg _ p v hp hk hv =>
    right
    exact ⟨v, rfl, by simp [lexArg_long hp hk (r := p) (by rw [splitEq_plain (prefix_noEq hk)]), splitEq_plain (prefix_noEq hk), lexArg_word.2 ⟨rfl, hv⟩]⟩
  | longEq _ p v hp hk => left; simp [lexArg_long hp hk (r := p ++ '=' :: v) (by rw [splitEq_eq (prefix_noEq hk)]), splitEq_eq (prefix_noEq hk)]

/-! ## The parser -/

theorem parseToks_spelled {ts : List (List Char)} {k : OptKey} {w : Option (List Char)} (h : Spelled ts k w) {rest : List ArgTok} (hr : ∀ v l, rest ≠ .word v :: l) (o : Opts) :
    parseToks (ts.map lexArg ++ rest) o = parseToks rest (o.set k w) := by
  rcases spelled_tokens h with e | ⟨v, rfl, e⟩
  · rw [e]
    cases w with
    | some v => rfl
    | none =>
      cases rest with
      | nil => rfl
      | cons t rest =>
        cases t with
        | word v => exact absurd rfl (hr v rest)
        | opt k' w' => rfl
        | stop => rfl
  · rw [e]; rfl

/-- Options set one after the other. -/
theorem parseToks_all {l : List (List (List Char) × OptKey × Option (List Char))} (h : ∀ x ∈ l, Spelled x.1 x.2.1 x.2.2) (o : Opts) :
    parseToks ((l.flatMap (·.1)).map lexArg) o = some ((l.map (·.2)).foldl (fun o x => o.set x.1 x.2) o) ∧ ∀ v t, (l.flatMap (·.1)).map lexArg ≠ .word v :: t := by
  induction l generalizing o with
  | nil => exact ⟨rfl, by simp⟩
  | cons x l ih =>
    have h1 := h x List.mem_cons_self
    have h2 := ih (fun y hy => h y (List.mem_cons_of_mem _ hy))
    constructor
    · rw [List.flatMap_cons, List.map_append, parseToks_spelled h1 (h2 o).2, (h2 _).1]
      rfl
    · rw [List.flatMap_cons, List.map_append]
      rcases spelled_tokens h1 with e | ⟨v, -, e⟩ <;> rw [e] <;> simp

theorem parseToks_some : ∀ (n : Nat) (args : List (List Char)) (o o' : Opts), args.length ≤ n → parseToks (args.map lexArg) o = some o' →
    ∃ l : List (List (List Char) × OptKey × Option (List Char)), (∀ x ∈ l, Spelled x.1 x.2.1 x.2.2) ∧ args = l.flatMap (·.1)
  | _, [], _, _, _, _ => ⟨[], by simp, rfl⟩
  | 0, _ :: _, _, _, hn, _ => by simp at hn
  | n + 1, a :: args, o, o', hn, h => by
    simp only [List.length_cons, Nat.add_le_add_iff_right] at hn
    rw [List.map_cons] at h
    cases ha : lexArg a with
    | stop => rw [ha] at h; simp [parseToks] at h
    | word v => rw [ha] at h; simp [parseToks] at h
    | opt k w =>
      rw [ha] at h
      obtain ⟨h1, h2⟩ := lexArg_opt ha
      cases w with
      | some v =>
        obtain ⟨l, hl, e⟩ := parseToks_some n args _ o' hn (by simpa [parseToks] using h)
        refine ⟨([a], k, some v) :: l, ?_, by simp [e]⟩
        intro x hx
        rcases List.mem_cons.1 hx with rfl | hx
        · exact h1
        · exact hl x hx
      | none =>
        have alone : parseToks (args.map lexArg) (o.set k none) = some o' → ∃ l : List (List (List Char) × OptKey × Option (List Char)), (∀ x ∈ l, Spelled x.1 x.2.1 x.2.2) ∧ a :: args = l.flatMap (·.1) := by
          intro h
          obtain ⟨l, hl, e⟩ := parseToks_some n args _ o' hn h
          refine ⟨([a], k, none) :: l, ?_, by simp [e]⟩
          intro x hx
          rcases List.mem_cons.1 hx with rfl | hx
          · exact h1
          · exact hl x hx
        cases args with
        | nil => exact alone (by simpa [parseToks] using h)
        | cons b args =>
          rw [List.map_cons] at h alone
          cases hb : lexArg b with
          | stop => rw [hb] at h alone; simp [parseToks] at h
          | opt k' w' => rw [hb] at h alone; exact alone (by simpa [parseToks] using h)
          | word v =>
            rw [hb] at h
            obtain ⟨rfl, hv⟩ := lexArg_word.1 hb
            simp only [List.length_cons] at hn
            obtain ⟨l, hl, e⟩ := parseToks_some n args _ o' (by omega) (by simpa [parseToks] using h)
            refine ⟨([a, v], k, some v) :: l, ?_, by simp [e]⟩
            intro x hx
            rcases List.mem_cons.1 hx with rfl | hx
            · exact h2 rfl v hv
            · exact hl x hx

theorem lastGiven_append {l : List (OptKey × Option (List Char))} {k' k : OptKey} {w : Option (List Char)} :
    lastGiven (l ++ [(k', w)]) k = if k' = k then some w else lastGiven l k := by
  induction l with
  | nil => simp [lastGiven]
  | cons x l ih =>
    obtain ⟨k0, w0⟩ := x
    rw [List.cons_append, lastGiven, ih]
    by_cases h : k' = k
    · simp [h]
    · simp only [h, if_false]
      rfl

theorem reflects_foldl (l : List (OptKey × Option (List Char))) : (l.foldl (fun o x => o.set x.1 x.2) Opts.default).Reflects l := by
  induction l using List.reverseRecOn with
  | nil => exact ⟨rfl, rfl, rfl, fun _ => rfl, fun h => by simp [lastGiven] at h, fun v h => by simp [lastGiven] at h⟩
  | append_singleton l x ih =>
    obtain ⟨k, w⟩ := x
    rw [List.foldl_append]
    obtain ⟨h1, h2, h3, h4, h5, h6⟩ := ih
    unfold Opts.Reflects
    simp only [lastGiven_append, List.foldl_cons, List.foldl_nil]
    cases k with
    | dir => simpa [Opts.set] using ⟨h2, h3, h4, h5, h6⟩
    | evaluator => simpa [Opts.set] using ⟨h1, h3, h4, h5, h6⟩
    | selection => simpa [Opts.set] using ⟨h1, h2, h4, h5, h6⟩
    | verbose =>
      refine ⟨by simpa [Opts.set] using h1, by simpa [Opts.set] using h2, by simpa [Opts.set] using h3, by simp, ?_, ?_⟩
      · intro h
        simp only [if_true, Option.some.injEq] at h
        subst h
        rfl
      · intro v h
        simp only [if_true, Option.some.injEq] at h
        subst h
        cases v with
        | nil => exact Or.inr ⟨rfl, rfl⟩
        | cons c v => exact Or.inl ⟨rfl, by simp⟩

theorem reflects_unique {o o' : Opts} {l : List (OptKey × Option (List Char))} (h : o.Reflects l) (h' : o'.Reflects l) : o = o' := by
  obtain ⟨a1, a2, a3, a4, a5, a6⟩ := h
  obtain ⟨b1, b2, b3, b4, b5, b6⟩ := h'
  have hv : o.verbose = o'.verbose := by
    cases hl : lastGiven l .verbose with
    | none => rw [a4 hl, b4 hl]
    | some w =>
      cases w with
      | none => rw [a5 hl, b5 hl]
      | some v =>
        rcases a6 v hl with ⟨e, f⟩ | ⟨e, f⟩ <;> rcases b6 v hl with ⟨e', f'⟩ | ⟨e', f'⟩
        · rw [e, e']
        · exact absurd f' f
        · exact absurd f f'
        · rw [e, e']
  cases o; cases o'
  simp only at a1 a2 a3 b1 b2 b3 hv
  rw [a1, a2, a3, hv, b1, b2, b3]

/-- The command lines that are accepted are exactly the sequences of options in one of their spellings, and the script sees what was given last for each, or the default. -/
theorem C110_accepted (args : List (List Char)) (o : Opts) :
    parseArgs args = some o ↔ ∃ l : List (List (List Char) × OptKey × Option (List Char)), (∀ x ∈ l, Spelled x.1 x.2.1 x.2.2) ∧ args = l.flatMap (·.1) ∧ o.Reflects (l.map (·.2)) := by
  constructor
  · intro h
    obtain ⟨l, hl, e⟩ := parseToks_some args.length args _ o (Nat.le_refl _) h
    refine ⟨l, hl, e, ?_⟩
    have := (parseToks_all hl Opts.default).1
    unfold parseArgs at h
    rw [e, this] at h
    rw [← Option.some.inj h]
    exact reflects_foldl _
  · rintro ⟨l, hl, rfl, hr⟩
    unfold parseArgs
    rw [(parseToks_all hl Opts.default).1, reflects_unique hr (reflects_foldl _)]

/-- An option added at the end sets what it names, whatever was given before, and nothing else. -/
theorem C110_last {args : List (List Char)} {o : Opts} (h : parseArgs args = some o) {ts : List (List Char)} {k : OptKey} {w : Option (List Char)} (hs : Spelled ts k w) :
    ∃ o', parseArgs (args ++ ts) = some o' ∧ (k = .dir → o' = { o with dir := w }) ∧ (k = .evaluator → o' = { o with evaluator := w }) ∧ (k = .selection → o' = { o with selection := w }) ∧
      (k = .verbose → o' = { o with verbose := w.map (fun v => decide (v ≠ [])) }) := by
  obtain ⟨l, hl, e⟩ := parseToks_some args.length args _ o (Nat.le_refl _) h
  have hl' : ∀ x ∈ l ++ [(ts, k, w)], Spelled x.1 x.2.1 x.2.2 := by
    intro x hx
    rcases List.mem_append.1 hx with hx | hx
    · exact hl x hx
    · rw [List.mem_singleton] at hx; subst hx; exact hs
  have e1 := (parseToks_all hl Opts.default).1
  have e2 := (parseToks_all hl' Opts.default).1
  unfold parseArgs at h
  rw [e, e1] at h
  have ho := Option.some.inj h
  refine ⟨o.set k w, ?_, ?_⟩
  · unfold parseArgs
    rw [show args ++ ts = (l ++ [(ts, k, w)]).flatMap (·.1) by simp [e], e2, List.map_append, List.foldl_append, ho]
    rfl
  · cases k <;> refine ⟨?_, ?_, ?_, ?_⟩ <;> intro hk <;> first | exact absurd hk (by decide) | rfl | skip
    cases w with
    | none => rfl
    | some v => cases v <;> rfl

/-- Different options can be given in any order. -/
theorem C110_order {args : List (List Char)} {o : Opts} (h : parseArgs args = some o) {ts ts' : List (List Char)} {k k' : OptKey} {w w' : Option (List Char)} (hs : Spelled ts k w)
    (hs' : Spelled ts' k' w') (hk : k ≠ k') : parseArgs (args ++ ts ++ ts') = parseArgs (args ++ ts' ++ ts) := by
  obtain ⟨o1, h1, a1, a2, a3, a4⟩ := C110_last h hs
  obtain ⟨o2, h2, b1, b2, b3, b4⟩ := C110_last h hs'
  obtain ⟨o3, h3, c1, c2, c3, c4⟩ := C110_last h1 hs'
  obtain ⟨o4, h4, d1, d2, d3, d4⟩ := C110_last h2 hs
  rw [h3, h4]
  congr 1
  cases k <;> cases k' <;> first | exact absurd rfl hk | simp_all

/-- Findings.  `-v` alone does not switch the messages on (the value is `None`), `-v False` does, as does every value but the empty text. -/
theorem C110_verbose {args : List (List Char)} {o : Opts} (h : parseArgs args = some o) :
    parseArgs (args ++ ["-v".toList]) = some { o with verbose := none } ∧
    parseArgs (args ++ ["-v".toList, "False".toList]) = some { o with verbose := some true } ∧
    (∀ v, IsWord v → v ≠ [] → parseArgs (args ++ ["--verbose".toList, v]) = some { o with verbose := some true }) ∧
    parseArgs (args ++ ["-v".toList, []]) = some { o with verbose := some false } := by
  refine ⟨?_, ?_, ?_, ?_⟩
  · obtain ⟨o', e, -, -, -, hv⟩ := C110_last h (.short .verbose)
    exact e.trans (by rw [hv rfl]; rfl)
  · obtain ⟨o', e, -, -, -, hv⟩ := C110_last h (.shortArg .verbose "False".toList (Or.inl (by simp)))
    exact e.trans (by rw [hv rfl]; rfl)
  · intro v hw hne
    obtain ⟨o', e, -, -, -, hv⟩ := C110_last h (.longArg .verbose OptKey.verbose.long v (by decide) (List.prefix_refl _) hw)
    exact e.trans (by rw [hv rfl]; simp [hne])
  · obtain ⟨o', e, -, -, -, hv⟩ := C110_last h (.shortArg .verbose [] (Or.inl (by simp)))
    exact e.trans (by rw [hv rfl]; rfl)

/-- Anything else ends the process: a value that belongs to no option, and an argument that is neither value nor option. -/
theorem C110_rejected (args : List (List Char)) (a : List Char) : (IsWord a → parseArgs (a :: args) = none) ∧
    (¬ IsWord a → (∀ k w, ¬ Spelled [a] k w) → ∀ before after, parseArgs (before ++ a :: after) = none) := by
  constructor
  · intro h
    unfold parseArgs
    rw [List.map_cons, lexArg_word.2 ⟨rfl, h⟩]
    rfl
  · intro h1 h2 before after
    have hstop : lexArg a = .stop := by
      cases ha : lexArg a with
      | stop => rfl
      | word v => exact absurd (lexArg_word.1 ha).2 h1
      | opt k w => exact absurd (lexArg_opt ha).1 (h2 k w)
    unfold parseArgs
    rw [List.map_append, List.map_cons, hstop]
    have key : ∀ (n : Nat) (pre : List ArgTok) (rest : List ArgTok) (o : Opts), pre.length ≤ n → parseToks (pre ++ .stop :: rest) o = none := by
      intro n
      induction n with
      | zero =>
        intro pre rest o hn
        cases pre with
        | nil => rfl
        | cons x pre => simp at hn
      | succ n ih =>
        intro pre rest o hn
        cases pre with
        | nil => rfl
        | cons x pre =>
          simp only [List.length_cons, Nat.add_le_add_iff_right] at hn
          cases x with
          | stop => rfl
          | word v => rfl
          | opt k w =>
            cases w with
            | some v => exact ih pre rest _ hn
            | none =>
              cases pre with
              | nil => rfl
              | cons y pre =>
                cases y with
                | stop => rfl
                | opt k' w' => exact ih (.opt k' w' :: pre) rest _ hn
                | word v => exact ih pre rest _ (by simp only [List.length_cons] at hn; omega)
    exact key _ _ _ _ (Nat.le_refl _)

theorem ruleByName_ok (s : String) : (∃ r, ruleByName s = .ok r) ↔ s ∈ ["random", "preferential", "roulette", "tournament", "roulette edit distance", "tournament edit distance",
    "random simple subpop scheme", "preferential simple subpop scheme", "random vectorDIFF", "preferential vectorDIFF", "random photoNEAT", "preferential photoNEAT"] := by
  simp only [List.mem_cons, List.not_mem_nil, or_false]
  unfold ruleByName
  constructor
  · rintro ⟨r, hr⟩
    by_contra hn
    simp only [not_or] at hn
    obtain ⟨h1, h2, h3, h4, h5, h6, h7, h8, h9, h10, h11, h12⟩ := hn
    rw [if_neg h1, if_neg h2, if_neg h3, if_neg h4, if_neg h5, if_neg h6, if_neg h7, if_neg h8, if_neg h9, if_neg h10, if_neg h11, if_neg h12] at hr
    cases hr
  · rintro (rfl | rfl | rfl | rfl | rfl | rfl | rfl | rfl | rfl | rfl | rfl | rfl) <;> exact ⟨_, rfl⟩

/-- The rule of selection is taken as it is given, any text will do; only the run tells whether there is such a rule.  `-s` without a name is no rule.  The evaluator is one of two. -/
theorem C110_selection {args : List (List Char)} {o : Opts} (h : parseArgs args = some o) :
    (∀ v, IsWord v → ∃ o', parseArgs (args ++ ["-s".toList, v]) = some o' ∧ o'.waveform = o.waveform ∧
      ((∃ r, o'.rule = .ok r) ↔ String.ofList v ∈ ["random", "preferential", "roulette", "tournament", "roulette edit distance", "tournament edit distance", "random simple subpop scheme",
        "preferential simple subpop scheme", "random vectorDIFF", "preferential vectorDIFF", "random photoNEAT", "preferential photoNEAT"])) ∧
    (∃ o', parseArgs (args ++ ["-s".toList]) = some o' ∧ o'.rule = .error .notImplemented) ∧
    (∀ v, IsWord v → ∃ o', parseArgs (args ++ ["-e".toList, v]) = some o' ∧
      (o'.waveform = if v = "rfawg_saw".toList then .ok "saw" else if v = "rfawg_square".toList then .ok "square" else .error .valueError)) := by
  refine ⟨fun v hw => ?_, ?_, fun v hw => ?_⟩
  · obtain ⟨o', e, -, -, hv, -⟩ := C110_last h (.shortArg .selection v hw)
    refine ⟨o', e, by rw [hv rfl]; rfl, ?_⟩
    have hr : o'.rule = ruleByName (String.ofList v) := by rw [hv rfl]; rfl
    rw [hr]
    exact ruleByName_ok _
  · obtain ⟨o', e, -, -, hv, -⟩ := C110_last h (.short .selection)
    exact ⟨o', e, by rw [hv rfl]; rfl⟩
  · obtain ⟨o', e, -, hv, -, -⟩ := C110_last h (.shortArg .evaluator v hw)
    exact ⟨o', e, by rw [hv rfl]; simp only [Opts.waveform, Option.some.injEq]⟩

/-! ## Cases -/

/-- `--ver yes -dout -e=rfawg_square -d` and the same spelled out. -/
def demoLine : List (List Char) := ["--ver".toList, "yes".toList, "-dout".toList, "-e=rfawg_square".toList, "-d".toList]

example : parseArgs demoLine = some ⟨none, some true, some "rfawg_square".toList, some "roulette".toList⟩ := by decide +kernel
example : parseArgs ["-d".toList, "-5".toList, "-s".toList, "-my rule".toList] = some ⟨some "-5".toList, some false, some "rfawg_saw".toList, some "-my rule".toList⟩ := by decide +kernel
example : parseArgs ["--sel=tournament".toList] = some ⟨some "data".toList, some false, some "rfawg_saw".toList, some "tournament".toList⟩ := by decide +kernel
example : parseArgs ["out".toList] = none ∧ parseArgs ["-x".toList] = none ∧ parseArgs ["--help".toList] = none ∧ parseArgs ["--=1".toList] = none := by decide +kernel
example : ∃ l : List (List (List Char) × OptKey × Option (List Char)), (∀ x ∈ l, Spelled x.1 x.2.1 x.2.2) ∧ demoLine = l.flatMap (·.1) :=
  let ⟨l, h, e, _⟩ := (C110_accepted demoLine _).1 (by decide +kernel : _ = some ⟨none, some true, some "rfawg_square".toList, some "roulette".toList⟩)
  ⟨l, h, e⟩
example := C110_last (args := demoLine) (o := ⟨none, some true, some "rfawg_square".toList, some "roulette".toList⟩) (by decide +kernel) (.short .selection)
example := C110_order (args := demoLine) (o := ⟨none, some true, some "rfawg_square".toList, some "roulette".toList⟩) (by decide +kernel) (.short .selection)
  (.longEq .dir ['d'] "x y".toList (by decide) ⟨['i', 'r'], rfl⟩) (by decide)
example := C110_verbose (args := demoLine) (o := ⟨none, some true, some "rfawg_square".toList, some "roulette".toList⟩) (by decide +kernel)
example := C110_selection (args := demoLine) (o := ⟨none, some true, some "rfawg_square".toList, some "roulette".toList⟩) (by decide +kernel)
example : parseArgs (demoLine ++ "--".toList :: []) = none := by decide +kernel
example : ∀ before after, parseArgs (before ++ "-x".toList :: after) = none :=
  (C110_rejected [] "-x".toList).2 (fun h => by rw [← (lexArg_word (v := "-x".toList)).trans (and_iff_right rfl)] at h; revert h; decide)
    (fun k w h => by
      rcases spelled_tokens h with e | ⟨v, -, e⟩
      · rw [show ["-x".toList].map lexArg = [.stop] by decide] at e; simp at e
      · simp at e)

end Verif
