import Verif.Pieces.Model

/-! # C49: different objects and pieces never share a cache key -/

namespace Verif.Pieces

/-! ## Specification -/

/-- What is stored under a key: the metadata (or the whole object, if it is small), the response header or a body piece
of a version of the content. -/
inductive Kind where
  | object
  | header (versionID : Nat)
  | body (versionID pieceNum : Nat)
  deriving DecidableEq

/-- The key under which a part of the object named `name` is stored, as PieceWiseCache.cpp:356, 390, 518 and 552 do it:
the base key is the escaped name. -/
def keyOf (piecesPerGroup : Nat) (name : Str) : Kind → Str
  | .object => escapeCacheKey name
  | .header v => createPieceHeaderKey (escapeCacheKey name) v
  | .body v n => createPieceKey (escapeCacheKey name) n piecesPerGroup v

/-! ## Escaping -/

theorem split_ne_nil (s : Str) : split s ≠ [] := by
  fun_cases split s
  · simp
  · simp
  · simp
  · simp

/-- Escaping, character by character. -/
def esc : Str → Str
  | '|' :: '#' :: '|' :: rest => '|' :: '#' :: '|' :: '|' :: '#' :: '|' :: esc rest
  | c :: rest => c :: esc rest
  | [] => []

theorem join_cons {sep p : Str} {ps : List Str} (h : ps ≠ []) : join sep (p :: ps) = p ++ (sep ++ join sep ps) := by
  cases ps with
  | nil => exact absurd rfl h
  | cons q qs => rfl

theorem join_split (s : Str) :
    join (kCachePieceSeparator ++ kCachePieceSeparator) (split s) = esc s := by
  fun_induction esc s with
  | case1 rest ih =>
    rw [split, join_cons (split_ne_nil _), ih]
    rfl
  | case2 c rest h ih =>
    have hs : split (c :: rest) = match split rest with
      | [] => [[c]]
      | p :: ps => (c :: p) :: ps := by
      rw [split]
      · rfl
      · exact h
    rw [hs]
    cases hr : split rest with
    | nil => exact absurd hr (split_ne_nil _)
    | cons p ps =>
      rw [hr] at ih
      rw [← ih]
      cases ps with
      | nil => rfl
      | cons q qs => rfl
  | case3 => rfl

theorem escape_eq (s : Str) : escapeCacheKey s = esc s := by
  unfold escapeCacheKey
  dsimp only
  split
  · rename_i h
    rw [← join_split]
    obtain ⟨p, hp⟩ : ∃ p, split s = [p] := by
      cases hs : split s with
      | nil => exact absurd hs (split_ne_nil _)
      | cons p ps =>
        rw [hs] at h
        simp at h
        exact ⟨p, by rw [h]⟩
    rw [hp, join]
    -- a single part is the string itself
    have : ∀ (s p : Str), split s = [p] → s = p := by
      intro s
      fun_induction split s with
      | case1 rest ih =>
        intro p h
        simp only [List.cons.injEq] at h
        exact absurd h.2 (split_ne_nil _)
      | case2 c rest h h2 ih => exact absurd h2 (split_ne_nil _)
      | case3 c rest h q qs h2 ih =>
        intro p hp
        simp only [List.cons.injEq] at hp
        rw [← hp.1, ih q (by rw [h2, hp.2])]
      | case4 => intro p h; simpa using h
    exact this s p hp
  · exact join_split s

/-- A lone separator: one that is not followed by another one, reading from the left. -/
def lone : Str → Bool
  | '|' :: '#' :: '|' :: '|' :: '#' :: '|' :: rest => lone rest
  | '|' :: '#' :: '|' :: _ => true
  | _ :: rest => lone rest
  | [] => false

theorem esc_head (s : Str) : (esc s).head? = s.head? := by
  fun_cases esc s <;> rfl

theorem esc_cons {c : Char} {rest : Str} (h : ∀ r, c = '|' → rest = '#' :: '|' :: r → False) :
    esc (c :: rest) = c :: esc rest := by
  rw [esc]
  intro r h1 h2
  exact h r h1 h2

theorem esc_eq_hash {s u : Str} (h : esc s = '#' :: u) : ∃ r, s = '#' :: r ∧ u = esc r := by
  have hh := esc_head s
  rw [h] at hh
  cases s with
  | nil => cases hh
  | cons c r =>
    simp only [List.head?_cons, Option.some.injEq] at hh
    subst hh
    rw [esc_cons (by intro r h1; cases h1)] at h
    exact ⟨r, rfl, by simpa using h.symm⟩

theorem esc_eq_bar {s u : Str} (h : esc s = '|' :: u) : ∃ r, s = '|' :: r := by
  have hh := esc_head s
  rw [h] at hh
  cases s with
  | nil => cases hh
  | cons c r =>
    simp only [List.head?_cons, Option.some.injEq] at hh
    subst hh
    exact ⟨r, rfl⟩

theorem lone_cons {c : Char} {rest : Str} (h : ∀ r, c = '|' → rest = '#' :: '|' :: r → False) :
    lone (c :: rest) = lone rest := by
  rw [lone]
  · intro r h1 h2
    exact h _ h1 h2
  · intro r h1 h2
    exact h _ h1 h2

theorem lone_sep {w : Str} (h : ∀ r, w = '|' :: '#' :: '|' :: r → False) : lone ('|' :: '#' :: '|' :: w) = true := by
  rw [lone]
  exact h

/-- An escaped string has no lone separator. -/
theorem lone_esc (s : Str) : lone (esc s) = false := by
  fun_induction esc s with
  | case1 rest ih => rw [lone, ih]
  | case2 c rest h ih =>
    rw [lone_cons, ih]
    intro r h1 h2
    obtain ⟨r1, rfl, h3⟩ := esc_eq_hash h2
    obtain ⟨r2, rfl⟩ := esc_eq_bar h3.symm
    exact h r2 h1 rfl
  | case3 => rfl

/-- An escaped string followed by something with a lone separator has one. -/
theorem lone_esc_append {t : Str} {c : Char} {y : Str} (ht : t = '|' :: c :: y) (hc : c ≠ '|') (hl : lone t = true) (s : Str) :
    lone (esc s ++ t) = true := by
  fun_induction esc s with
  | case1 rest ih =>
    show lone ('|' :: '#' :: '|' :: '|' :: '#' :: '|' :: (esc rest ++ t)) = true
    rw [lone, ih]
  | case2 d rest h ih =>
    rw [List.cons_append]
    by_cases hb : ∃ r, d = '|' ∧ esc rest ++ t = '#' :: '|' :: r
    · obtain ⟨r, rfl, h2⟩ := hb
      rw [h2]
      apply lone_sep
      intro r' hr'
      -- the text before the bar belongs to `rest`
      cases rest with
      | nil =>
        rw [ht] at h2
        simp [esc] at h2
      | cons x rest =>
        have hx : x = '#' := by
          have := esc_head (x :: rest)
          cases he : esc (x :: rest) with
          | nil => rw [he] at this; cases this
          | cons z zs =>
            rw [he] at this h2
            simp only [List.head?_cons, Option.some.injEq] at this
            simp only [List.cons_append, List.cons.injEq] at h2
            rw [← this, h2.1]
        subst hx
        rw [esc_cons (by intro r h1; cases h1)] at h2
        simp only [List.cons_append, List.cons.injEq, true_and] at h2
        cases rest with
        | nil =>
          rw [ht] at h2
          simp only [esc, List.nil_append, List.cons.injEq, true_and] at h2
          rw [← h2] at hr'
          simp only [List.cons.injEq] at hr'
          exact hc hr'.1
        | cons z rest =>
          have hz : z = '|' := by
            have := esc_head (z :: rest)
            cases he : esc (z :: rest) with
            | nil => rw [he] at this; cases this
            | cons z' zs =>
              rw [he] at this h2
              simp only [List.head?_cons, Option.some.injEq] at this
              simp only [List.cons_append, List.cons.injEq] at h2
              rw [← this, h2.1]
          subst hz
          exact h rest rfl rfl
    · rw [lone_cons (by intro r h1 h2; exact hb ⟨r, h1, h2⟩)]
      exact ih
  | case3 => exact hl

theorem esc_inj : ∀ {s t : Str}, esc s = esc t → s = t := by
  intro s
  fun_induction esc s with
  | case1 rest ih =>
    intro t ht
    fun_cases esc t with
    | case1 rest' =>
      simp only [esc, List.cons.injEq, true_and] at ht
      rw [ih ht]
    | case2 c rest' h =>
      rw [esc_cons (by intro r h1 h2; exact h r h1 h2)] at ht
      simp only [List.cons.injEq] at ht
      obtain ⟨rfl, ht⟩ := ht
      obtain ⟨r1, rfl, h3⟩ := esc_eq_hash ht.symm
      obtain ⟨r2, rfl⟩ := esc_eq_bar h3.symm
      exact absurd rfl (fun h' => h r2 rfl h')
    | case3 => simp [esc] at ht
  | case2 c rest h ih =>
    intro t ht
    fun_cases esc t with
    | case1 rest' =>
      simp only [esc, List.cons.injEq] at ht
      obtain ⟨rfl, ht⟩ := ht
      obtain ⟨r1, rfl, h3⟩ := esc_eq_hash ht
      obtain ⟨r2, rfl⟩ := esc_eq_bar h3.symm
      exact absurd rfl (fun h' => h r2 rfl h')
    | case2 c' rest' h' =>
      rw [esc_cons (by intro r h1 h2; exact h' r h1 h2)] at ht
      simp only [List.cons.injEq] at ht
      rw [ht.1, ih ht.2]
    | case3 => simp [esc] at ht
  | case3 =>
    intro t ht
    have := esc_head t
    rw [← ht] at this
    cases t with
    | nil => rfl
    | cons => cases this

/-! ## Decimal numbers -/

def isDig (c : Char) : Bool := decide (48 ≤ c.toNat ∧ c.toNat ≤ 57)

theorem digit_toNat {d : Nat} (h : d < 10) : (digit d).toNat = 48 + d := by
  have : d = 0 ∨ d = 1 ∨ d = 2 ∨ d = 3 ∨ d = 4 ∨ d = 5 ∨ d = 6 ∨ d = 7 ∨ d = 8 ∨ d = 9 := by omega
  rcases this with rfl | rfl | rfl | rfl | rfl | rfl | rfl | rfl | rfl | rfl <;> decide

/-- The number denoted by digits. -/
def val (l : Str) : Nat := l.foldl (fun a c => 10 * a + (c.toNat - 48)) 0

theorem decAux_val : ∀ (f n : Nat), n < f → val (decAux f n) = n ∧ decAux f n ≠ [] ∧ ∀ c ∈ decAux f n, isDig c = true := by
  intro f
  induction f with
  | zero => intro n h; omega
  | succ f ih =>
    intro n hn
    rw [decAux]
    have hd : ∀ d, d < 10 → isDig (digit d) = true := by
      intro d hd
      unfold isDig
      rw [digit_toNat hd]
      simp; omega
    split
    · rename_i h
      refine ⟨?_, by simp, ?_⟩
      · simp [val, digit_toNat h]
      · intro c hc
        simp only [List.mem_singleton] at hc
        rw [hc]
        exact hd n h
    · rename_i h
      obtain ⟨i1, i2, i3⟩ := ih (n / 10) (by omega)
      have hm : n % 10 < 10 := Nat.mod_lt _ (by omega)
      refine ⟨?_, by simp, ?_⟩
      · unfold val at i1 ⊢
        rw [List.foldl_append, i1]
        simp only [List.foldl_cons, List.foldl_nil, digit_toNat hm]
        omega
      · intro c hc
        rw [List.mem_append, List.mem_singleton] at hc
        rcases hc with hc | rfl
        · exact i3 c hc
        · exact hd _ hm

theorem dec_dig (n : Nat) : ∀ c ∈ dec n, isDig c = true := (decAux_val _ n (by omega)).2.2

theorem dec_ne (n : Nat) : dec n ≠ [] := (decAux_val _ n (by omega)).2.1

theorem dec_inj {n m : Nat} (h : dec n = dec m) : n = m := by
  rw [← (decAux_val (n + 1) n (by omega)).1, ← (decAux_val (m + 1) m (by omega)).1]
  exact congrArg val h

theorem strip_front {u v : Str} {a b : Str} {x y : Char} (hx : isDig x = false) (hy : isDig y = false)
    (hu : ∀ c ∈ u, isDig c = true) (hv : ∀ c ∈ v, isDig c = true) (h : u ++ x :: a = v ++ y :: b) :
    a = b ∧ x = y ∧ u = v := by
  induction u generalizing v with
  | nil =>
    cases v with
    | nil => simp only [List.nil_append, List.cons.injEq] at h; exact ⟨h.2, h.1, rfl⟩
    | cons c v =>
      exfalso
      simp only [List.nil_append, List.cons_append, List.cons.injEq] at h
      rw [h.1, hv c (by simp)] at hx
      cases hx
  | cons d u ih =>
    cases v with
    | nil =>
      exfalso
      simp only [List.nil_append, List.cons_append, List.cons.injEq] at h
      have := hu d (by simp)
      rw [h.1, hy] at this
      cases this
    | cons c v =>
      simp only [List.cons_append, List.cons.injEq] at h
      obtain ⟨e1, e2, e3⟩ := ih (fun c hc => hu c (by simp [hc])) (fun c hc => hv c (by simp [hc])) h.2
      exact ⟨e1, e2, by rw [h.1, e3]⟩

/-- The digits at the end of a string can be split off. -/
theorem strip {a b : Str} {x y : Char} {u v : Str} (hx : isDig x = false) (hy : isDig y = false)
    (hu : ∀ c ∈ u, isDig c = true) (hv : ∀ c ∈ v, isDig c = true) (h : a ++ x :: u = b ++ y :: v) :
    a = b ∧ x = y ∧ u = v := by
  have h1 := congrArg List.reverse h
  simp only [List.reverse_append, List.reverse_cons, List.append_assoc, List.singleton_append] at h1
  obtain ⟨e1, e2, e3⟩ := strip_front hx hy (fun c hc => hu c (by simpa using hc)) (fun c hc => hv c (by simpa using hc)) h1
  exact ⟨List.reverse_inj.mp e1, e2, List.reverse_inj.mp e3⟩

/-! ## The keys -/

/-- What follows the base key. -/
def suffix (ppg : Nat) : Kind → Str
  | .object => []
  | .header v => createPieceHeaderKey [] v
  | .body v n => createPieceKey [] n ppg v

theorem keyOf_eq (ppg : Nat) (name : Str) (k : Kind) : keyOf ppg name k = esc name ++ suffix ppg k := by
  cases k with
  | object => simp [keyOf, suffix, escape_eq]
  | header v => simp [keyOf, suffix, escape_eq, createPieceHeaderKey]
  | body v n =>
    unfold keyOf suffix createPieceKey
    rw [escape_eq]
    dsimp only
    generalize (if ppg > 0 then n / ppg else 0) = g
    split <;> simp

/-- The part of a body key before the version. -/
def bodyPre (ppg n : Nat) : Str :=
  if (if ppg > 0 then n / ppg else 0) = 0 then ['|', '#', '|', 'b', 'o', 'd', 'y']
  else ['|', '@', '|'] ++ (dec (if ppg > 0 then n / ppg else 0) ++ ['|', '#', '|', 'b', 'o', 'd', 'y'])

theorem suffix_body (ppg v n : Nat) : suffix ppg (.body v n) = bodyPre ppg n ++ '-' :: (dec v ++ '-' :: dec n) := by
  unfold suffix createPieceKey bodyPre
  dsimp only
  generalize (if ppg > 0 then n / ppg else 0) = g
  split <;> simp [kCachePieceSeparator, kCacheGroupSeparator]

theorem suffix_header (ppg v : Nat) :
    suffix ppg (.header v) = ['|', '#', '|', 'h', 'e', 'a', 'd', 'e', 'r'] ++ '-' :: dec v := by
  unfold suffix createPieceHeaderKey
  simp [kCachePieceSeparator]

theorem lone_dec_append (n : Nat) (t : Str) : lone (dec n ++ t) = lone t := by
  have : ∀ u : Str, (∀ c ∈ u, isDig c = true) → lone (u ++ t) = lone t := by
    intro u
    induction u with
    | nil => intro _; rfl
    | cons c u ih =>
      intro h
      rw [List.cons_append, lone_cons, ih (fun d hd => h d (by simp [hd]))]
      intro r h1
      have := h c (by simp)
      rw [h1] at this
      exact absurd this (by decide)
  exact this _ (dec_dig n)

/-- A suffix starts with a bar and another character, and has a lone separator. -/
theorem suffix_lone (ppg : Nat) (k : Kind) (hk : k ≠ .object) :
    ∃ c y, suffix ppg k = '|' :: c :: y ∧ c ≠ '|' ∧ lone (suffix ppg k) = true := by
  cases k with
  | object => exact absurd rfl hk
  | header v =>
    rw [suffix_header]
    refine ⟨'#', _, rfl, by decide, ?_⟩
    apply lone_sep
    intro r hr
    simp at hr
  | body v n =>
    rw [suffix_body]
    unfold bodyPre
    generalize (if ppg > 0 then n / ppg else 0) = g
    split
    · refine ⟨'#', _, rfl, by decide, ?_⟩
      apply lone_sep
      intro r hr
      simp at hr
    · refine ⟨'@', _, rfl, by decide, ?_⟩
      simp only [List.cons_append, List.nil_append, List.append_assoc]
      rw [lone_cons (by intro r h1 h2; simp at h2), lone_cons (by intro r h1; cases h1)]
      rw [lone_cons, lone_dec_append]
      · apply lone_sep
        intro r hr
        simp at hr
      · intro r h1 h2
        cases hd : dec g with
        | nil => exact dec_ne _ hd
        | cons c l =>
          rw [hd] at h2
          simp only [List.cons_append, List.cons.injEq] at h2
          have := dec_dig g c (by rw [hd]; simp)
          rw [h2.1] at this
          exact absurd this (by decide)

/-- **C49.** With one number of pieces per group, keys of different objects, or of different parts (whole object or
metadata, header, body piece) or versions of an object, are different - whatever the names contain. -/
theorem keys_distinct (ppg : Nat) {name name' : Str} {k k' : Kind} (h : keyOf ppg name k = keyOf ppg name' k') :
    name = name' ∧ k = k' := by
  rw [keyOf_eq, keyOf_eq] at h
  have hobj : ∀ {n n' : Str} {k' : Kind}, k' ≠ .object → esc n = esc n' ++ suffix ppg k' → False := by
    intro n n' k' hk' he
    obtain ⟨c, y, e, hc, hl⟩ := suffix_lone ppg k' hk'
    have := lone_esc_append e hc hl n'
    rw [← he, lone_esc] at this
    cases this
  have dash : isDig '-' = false := by decide
  have hbody : ∀ (b : Str) (v n : Nat), b ++ suffix ppg (.body v n) =
      (b ++ bodyPre ppg n ++ '-' :: dec v) ++ '-' :: dec n := by
    intro b v n; rw [suffix_body]; simp
  have hheader : ∀ (b : Str) (v : Nat), b ++ suffix ppg (.header v) =
      (b ++ ['|', '#', '|', 'h', 'e', 'a', 'd', 'e', 'r']) ++ '-' :: dec v := by
    intro b v; rw [suffix_header]; simp
  -- a header key is not a body key
  have hhb : ∀ {b b' : Str} {v v' n' : Nat}, b ++ suffix ppg (.header v) = b' ++ suffix ppg (.body v' n') → False := by
    intro b b' v v' n' he
    rw [hbody, hheader] at he
    obtain ⟨e1, -, -⟩ := strip dash dash (dec_dig _) (dec_dig _) he
    have hr : isDig 'r' = false := by decide
    have e2 : (b ++ ['|', '#', '|', 'h', 'e', 'a', 'd', 'e']) ++ 'r' :: [] = (b' ++ bodyPre ppg n') ++ '-' :: dec v' := by
      rw [← e1]; simp
    obtain ⟨-, e3, -⟩ := strip hr dash (by simp) (dec_dig _) e2
    exact absurd e3 (by decide)
  cases k with
  | object =>
    cases k' with
    | object =>
      simp only [suffix, List.append_nil] at h
      exact ⟨esc_inj h, rfl⟩
    | header v => exact (hobj (k' := .header v) (by simp) (by simpa [suffix] using h)).elim
    | body v n => exact (hobj (k' := .body v n) (by simp) (by simpa [suffix] using h)).elim
  | header v =>
    cases k' with
    | object => exact (hobj (k' := .header v) (by simp) (by simpa [suffix] using h.symm)).elim
    | header v' =>
      rw [hheader, hheader] at h
      obtain ⟨e1, -, e2⟩ := strip dash dash (dec_dig _) (dec_dig _) h
      exact ⟨esc_inj (List.append_cancel_right e1), by rw [dec_inj e2]⟩
    | body v' n' => exact (hhb h).elim
  | body v n =>
    cases k' with
    | object => exact (hobj (k' := .body v n) (by simp) (by simpa [suffix] using h.symm)).elim
    | header v' => exact (hhb h.symm).elim
    | body v' n' =>
      rw [hbody, hbody] at h
      obtain ⟨e1, -, e2⟩ := strip dash dash (dec_dig _) (dec_dig _) h
      obtain ⟨e3, -, e4⟩ := strip dash dash (dec_dig _) (dec_dig _) e1
      have := dec_inj e2
      subst this
      have := dec_inj e4
      subst this
      exact ⟨esc_inj (List.append_cancel_right e3), rfl⟩

/-! ## getBaseKey -/

/-- Neither separator occurs in the base key, nor across its end. -/
def Plain (base : Str) : Prop :=
  ∀ a b : Str, base ++ ['|'] ≠ a ++ ('|' :: '#' :: '|' :: b) ∧ base ++ ['|'] ≠ a ++ ('|' :: '@' :: '|' :: b)

theorem Plain.tail {c : Char} {s : Str} (h : Plain (c :: s)) : Plain s := by
  intro a b
  obtain ⟨h1, h2⟩ := h (c :: a) b
  refine ⟨fun e => h1 ?_, fun e => h2 ?_⟩
  · simp only [List.cons_append, e]
  · simp only [List.cons_append, e]

/-- In a plain base key followed by a bar, neither separator starts in the base key. -/
theorem plain_start {c : Char} {s t : Str} (h : Plain (c :: s)) (d : Char) (hd : d = '#' ∨ d = '@') :
    ['|', d, '|'].isPrefixOf (c :: (s ++ '|' :: t)) = false := by
  cases hp : ['|', d, '|'].isPrefixOf (c :: (s ++ '|' :: t)) with
  | false => rfl
  | true =>
    exfalso
    simp only [List.isPrefixOf, Bool.and_eq_true, beq_iff_eq] at hp
    obtain ⟨rfl, hp⟩ := hp
    cases s with
    | nil =>
      simp only [List.nil_append, List.isPrefixOf, Bool.and_eq_true, beq_iff_eq] at hp
      rcases hd with rfl | rfl <;> exact absurd hp.1 (by decide)
    | cons x s =>
      simp only [List.cons_append, List.isPrefixOf, Bool.and_eq_true, beq_iff_eq] at hp
      obtain ⟨rfl, hp⟩ := hp
      cases s with
      | nil =>
        rcases hd with rfl | rfl
        · exact (h [] []).1 rfl
        · exact (h [] []).2 rfl
      | cons y s =>
        simp only [List.cons_append, List.isPrefixOf, Bool.and_eq_true, beq_iff_eq, and_true] at hp
        subst hp
        rcases hd with rfl | rfl
        · exact (h [] (s ++ ['|'])).1 rfl
        · exact (h [] (s ++ ['|'])).2 rfl

theorem find_plain {base t : Str} (h : Plain base) (d : Char) (hd : d = '#' ∨ d = '@') :
    find ['|', d, '|'] (base ++ '|' :: t) = (find ['|', d, '|'] ('|' :: t)).map (· + base.length) := by
  induction base with
  | nil => simp
  | cons c s ih =>
    rw [List.cons_append, find, if_neg (by rw [plain_start h d hd]; simp), ih h.tail]
    simp [Option.map_map, Function.comp_def, Nat.add_assoc]

theorem find_none {d : Char} {s : Str} (h : d ∉ s) : find ['|', d, '|'] s = none := by
  induction s with
  | nil => rfl
  | cons c s ih =>
    rw [find, if_neg, ih (fun hm => h (by simp [hm]))]
    · rfl
    · intro hp
      simp only [List.isPrefixOf, Bool.and_eq_true] at hp
      cases s with
      | nil => simp [List.isPrefixOf] at hp
      | cons x s =>
        simp only [List.isPrefixOf, Bool.and_eq_true, beq_iff_eq] at hp
        exact h (by simp [← hp.2.1])

theorem at_notin_dec (n : Nat) : '@' ∉ dec n := fun h => absurd (dec_dig n _ h) (by decide)

/-- The base key is recovered from any key of an object whose base key contains no separator (and does not end with the
first two characters of one). -/
theorem getBaseKey_correct (ppg : Nat) (base : Str) (h : Plain base) (v n : Nat) :
    getBaseKey (createPieceHeaderKey base v) = base ∧ getBaseKey (createPieceKey base n ppg v) = base := by
  have key : ∀ t : Str, ('@' ∉ t ∧ ∃ y, t = '#' :: '|' :: y) ∨ (∃ y, t = '@' :: '|' :: y) →
      getBaseKey (base ++ '|' :: t) = base := by
    intro t ht
    unfold getBaseKey kCacheGroupSeparator kCachePieceSeparator
    rw [find_plain h '@' (Or.inr rfl), find_plain h '#' (Or.inl rfl)]
    rcases ht with ⟨h1, y, rfl⟩ | ⟨y, rfl⟩
    · rw [find_none (d := '@') (by
        intro hm
        rcases List.mem_cons.mp hm with hm | hm
        · exact absurd hm (by decide)
        · exact h1 hm)]
      have : find ['|', '#', '|'] ('|' :: '#' :: '|' :: y) = some 0 := by
        rw [find, if_pos (by simp [List.isPrefixOf])]
      rw [this]
      simp
    · have : find ['|', '@', '|'] ('|' :: '@' :: '|' :: y) = some 0 := by
        rw [find, if_pos (by simp [List.isPrefixOf])]
      rw [this]
      simp
  refine ⟨?_, ?_⟩
  · unfold createPieceHeaderKey
    apply key
    left
    refine ⟨?_, _, rfl⟩
    have := at_notin_dec v
    simp [this]
  · unfold createPieceKey
    dsimp only
    generalize (if ppg > 0 then n / ppg else 0) = g
    split
    · apply key
      left
      refine ⟨?_, _, rfl⟩
      have := at_notin_dec v
      have := at_notin_dec n
      simp [*]
    · apply key
      right
      exact ⟨_, rfl⟩

/-- A key that contains no separator is its own base key. -/
theorem getBaseKey_plain (base : Str) (h : '|' ∉ base) : getBaseKey base = base := by
  have hn : ∀ (d : Char) (s : Str), '|' ∉ s → find ['|', d, '|'] s = none := by
    intro d s
    induction s with
    | nil => intro _; rfl
    | cons c s ih =>
      intro hs
      rw [find, if_neg, ih (fun hm => hs (by simp [hm]))]
      · rfl
      · intro hp
        simp only [List.isPrefixOf, Bool.and_eq_true, beq_iff_eq] at hp
        exact hs (by simp [← hp.1])
  unfold getBaseKey kCacheGroupSeparator kCachePieceSeparator
  rw [hn _ _ h, hn _ _ h]

/-! ## Examples and limits -/

/-- The escaped name is needed: without escaping the object `k|#|header-0` would be stored under the header key of `k`. -/
example : keyOf 5 "k|#|header-0".toList .object = "k|#||#|header-0".toList ∧
    keyOf 5 "k".toList (.header 0) = "k|#|header-0".toList ∧
    keyOf 5 "k".toList (.body 0 12) = "k|@|2|#|body-0-12".toList := by decide +kernel

example : Plain "any".toList := by
  intro a b
  have hb : ∀ d : Char, "any".toList ++ ['|'] ≠ a ++ ('|' :: d :: '|' :: b) := by
    intro d h
    have h1 := congrArg (List.count '|') h
    have h2 : List.count '|' ("any".toList ++ ['|']) = 1 := by decide
    rw [h2, List.count_append, List.count_cons_self, List.count_cons, List.count_cons_self] at h1
    omega
  exact ⟨hb '#', hb '@'⟩

/-- With different numbers of pieces per group, two objects can share a key: piece 5 of `a` (groups of 5) and piece 5 of
`a|@|1` (one group). -/
theorem groups_collide : createPieceKey "a".toList 5 5 0 = createPieceKey "a|@|1".toList 5 0 0 := by decide +kernel

/-- The base key of an escaped name is not recovered. -/
theorem getBaseKey_wrong :
    getBaseKey (createPieceHeaderKey (escapeCacheKey "x|#|y".toList) 0) = "x".toList ∧
    getBaseKey (createPieceHeaderKey (escapeCacheKey "x|#".toList) 0) = "x".toList ∧
    getBaseKey (createPieceHeaderKey (escapeCacheKey "x|@|y".toList) 0) = "x".toList := by decide +kernel

end Verif.Pieces
