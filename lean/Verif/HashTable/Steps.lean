import Verif.HashTable.Frame
/-! Every step of the table is a step of the atomic map or invisible. -/
namespace Verif.HashTable
variable {K : Type} {n : Nat}

theorem good_nodup {c : Cfg K} {b : Nat} {l : List P} (h : Good c b l) : l.Nodup := List.Nodup.of_map _ h.1

theorem good_inj {c : Cfg K} {b : Nat} {l : List P} (h : Good c b l) {p q : P} (hp : p ∈ l) (hq : q ∈ l)
    (e : c.key p = c.key q) : p = q := by
  exact List.inj_on_of_nodup_map h.1 hp hq e

theorem op_lt {c : Cfg K} {o : Op K} (h : o.exclusive = true) : c.opBucket o < 2 ^ c.bucketsPower := by
  cases o <;> simp [Op.exclusive] at h <;> exact bucket_lt c _

theorem new_excl {o : Op K} {nd : P} (h : o.newNode = some nd) : o.exclusive = true := by
  cases o <;> first | rfl | cases h

theorem target_excl {o : Op K} {nd : P} (h : o.target = some nd) : o.exclusive = true := by
  cases o <;> first | rfl | cases h

theorem dirty_excl {c : Cfg K} {s : State K n} {L : Nat → List P} {p : PC K} {o : Op K}
    (ho : p.op = some o) (hd : p.dirty = true) (hl : Loc c s L p) : o.exclusive = true := by
  cases p <;> first | cases hd; done | skip
  all_goals cases ho
  case iNext => obtain ⟨_, _, h, _⟩ := hl; exact new_excl (pre_new h)
  case iMark => obtain ⟨_, _, h, _⟩ := hl; exact new_excl (pre_new h)
  case xNext => obtain ⟨_, _, _, h, _⟩ := hl; exact new_excl h
  case xDone => obtain ⟨_, _, _, h, _⟩ := hl; exact new_excl h
  case xOld => obtain ⟨_, _, _, rfl, _⟩ := hl; rfl
  case back => obtain ⟨_, _, _, rfl, _⟩ := hl; rfl
  case bLink => obtain ⟨_, _, _, rfl, _⟩ := hl; rfl
  case bNext => obtain ⟨_, _, _, rfl, _⟩ := hl; rfl
  case uMark => obtain ⟨_, _, _, h, _⟩ := hl; exact target_excl h

/-- in-lock thread that is not dirty sees the logical chain. -/
theorem Inv.chain {c : Cfg K} {s : State K n} {L : Nat → List P} (h : Inv c s L) {t : Fin n} {o : Op K}
    (ho : (s.pc t).op = some o) (hl : (s.pc t).inLock = true) (hd : (s.pc t).dirty = false) :
    Chain s (c.opBucket o) (L (c.opBucket o)) := by
  apply h.clean
  intro t' o' ho' hd'
  by_cases e : t' = t
  · subst e; rw [hd] at hd'; cases hd'
  · have hl' : (s.pc t').inLock = true := by
      revert hd'; cases s.pc t' <;> simp [PC.dirty, PC.inLock]
    have hx' : o'.exclusive = true := by
      exact dirty_excl ho' hd' (h.loc t')
    exact fun e' => h.excl t' t o' o e ho' ho hl' hl hx' (by rw [e'])

theorem seg_head {next : P → Option P} {a : Option P} {l : List P} (h : Seg next a l none) :
    a = l.head? := by
  cases l with
  | nil => simpa [Seg] using h
  | cons p l => simpa using h.1

/-- position after reading the head of a chain. -/
theorem pos_start {c : Cfg K} {next : P → Option P} {a : Option P} {l : List P} (k : K)
    (h : Seg next a l none) : Pos c l k none a :=
  ⟨[], l, rfl, seg_head h, rfl, by simp⟩

/-- position after one more iteration of the loop. -/
theorem pos_next {c : Cfg K} {next : P → Option P} {a : Option P} {l : List P} {k : K} {prev : Option P}
    {x : P} (h : Seg next a l none) (hp : Pos c l k prev (some x)) (hx : c.key x ≠ k) :
    Pos c l k (some x) (next x) := by
  obtain ⟨pre, post, rfl, hc, -, hk⟩ := hp
  cases post with
  | nil => cases hc
  | cons y post =>
    simp at hc; subst hc
    rw [Seg.append] at h
    obtain ⟨m, -, h2⟩ := h
    refine ⟨pre ++ [x], post, by simp, seg_head h2.2, by simp, ?_⟩
    intro p hp
    simp at hp
    rcases hp with hp | rfl
    exacts [hk p hp, hx]

theorem pos_none {c : Cfg K} {l : List P} {k : K} {prev : Option P} (h : Pos c l k prev none) :
    ∀ p ∈ l, c.key p ≠ k := by
  obtain ⟨pre, post, rfl, hc, -, hk⟩ := h
  cases post with
  | nil => simpa using hk
  | cons y post => cases hc

theorem pos_some {c : Cfg K} {l : List P} {k : K} {prev : Option P} {x : P} (h : Pos c l k prev (some x)) :
    ∃ pre post, l = pre ++ x :: post ∧ prev = pre.getLast? ∧ ∀ p ∈ pre, c.key p ≠ k := by
  obtain ⟨pre, post, rfl, hc, hl, hk⟩ := h
  cases post with
  | nil => cases hc
  | cons y post => simp at hc; subst hc; exact ⟨pre, post, rfl, hl, hk⟩

/-- storing into the link before position `pre`. -/
theorem setLink_seg {s : State K n} {b : Nat} {pre : List P} {a v : Option P} (hn : pre.Nodup)
    (h : Seg s.next (s.heads b) pre a) :
    Seg (s.setLink b pre.getLast? v).next ((s.setLink b pre.getLast? v).heads b) pre v := by
  rcases List.eq_nil_or_concat pre with rfl | ⟨l, x, rfl⟩
  · simp [State.setLink, Seg, upd]
  · simp only [List.concat_eq_append, List.getLast?_append_of_ne_nil _ (List.cons_ne_nil x []),
      List.getLast?_singleton] at *
    rw [Seg.append] at h ⊢
    obtain ⟨m, h1, h2⟩ := h
    refine ⟨m, ?_, ?_⟩
    · have : x ∉ l := by
        intro hx
        rw [List.nodup_append] at hn
        exact hn.2.2 x hx x (by simp) rfl
      show Seg (upd s.next x v) _ l m
      rw [Seg.upd_notin this]; exact h1
    · show Seg (upd s.next x v) m [x] v
      simp only [Seg] at h2 ⊢
      exact ⟨h2.1, by simp [upd]⟩

theorem setLink_next {s : State K n} {b : Nat} {prev v : Option P} {x : P} (h : prev ≠ some x) :
    (s.setLink b prev v).next x = s.next x := by
  cases prev with
  | none => rfl
  | some q =>
    have : x ≠ q := fun e => h (by rw [e])
    simp [State.setLink, upd, this]

theorem setLink_heads {s : State K n} {b b' : Nat} {prev v : Option P} (h : b' ≠ b) :
    (s.setLink b prev v).heads b' = s.heads b' := by
  cases prev with
  | none => simp [State.setLink, upd, h]
  | some q => rfl

theorem setLink_acc {s : State K n} {b : Nat} {prev v : Option P} : (s.setLink b prev v).acc = s.acc := by
  cases prev <;> rfl

theorem setLink_num {s : State K n} {b : Nat} {prev v : Option P} :
    (s.setLink b prev v).numKeys = s.numKeys := by
  cases prev <;> rfl

theorem setLink_pc {s : State K n} {b : Nat} {prev v : Option P} : (s.setLink b prev v).pc = s.pc := by
  cases prev <;> rfl

theorem setLink_seg_notin {s : State K n} {b : Nat} {prev v a q : Option P} {l : List P}
    (h : ∀ x ∈ l, prev ≠ some x) : Seg (s.setLink b prev v).next a l q ↔ Seg s.next a l q :=
  Seg.congr fun x hx => setLink_next (h x hx)

theorem last_mem {pre : List P} {x : P} (h : pre.getLast? = some x) : x ∈ pre :=
  List.mem_of_getLast? h

end Verif.HashTable
