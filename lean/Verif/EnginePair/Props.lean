import Verif.EnginePair.Model
import Verif.BigHash.EngineProps
/-!
Property C24: small and large flash engine combined keep one copy per key.

Specification: what is assumed of each engine is `Contract` (proved for the small-object engine and the no-op engine below); the
result is stated on traces of completed requests: `allowed k tr` is the set of values a lookup of `k` may return after `tr`.
-/
namespace Verif.EnginePair
open Verif
open Verif.BigHash (Status)

/-- `a` is `b` or nothing: content may disappear (eviction) at any time. -/
def Le (a b : Option Val) : Prop := a = none ∨ a = b

/-- What an engine must guarantee. `holds`: the only value a lookup may return; `must`: the value a lookup has to return if the device
works (`good`). -/
structure Contract (E : Engine) where
  inv : E.σ → Prop
  fits : Key → Val → Prop
  holds : E.σ → Key → Option Val
  must : E.σ → Key → Option Val
  good : E.σ → E.Ω → Key → Prop
  insert_def : ∀ {s ω k v}, inv s → fits k v → E.insert s ω k v ≠ none
  insert_spec : ∀ {s ω k v s' st}, inv s → fits k v → E.insert s ω k v = some (s', st) → inv s' ∧
    (∀ k', k' ≠ k → Le (holds s' k') (holds s k')) ∧ (st = .ok → Le (holds s' k) (some v) ∧ must s' k = some v) ∧
    (st ≠ .ok → Le (holds s' k) (holds s k))
  remove_spec : ∀ {s ω k s' st}, inv s → E.remove s ω k = (s', st) → inv s' ∧ (∀ k', Le (holds s' k') (holds s k')) ∧
    (st = .ok ∨ st = .notFound → holds s' k = none)
  lookup_spec : ∀ {s ω k s' st r}, inv s → E.lookup s ω k = (s', st, r) → inv s' ∧ (∀ k', Le (holds s' k') (holds s k')) ∧
    (r ≠ none ↔ st = .ok) ∧ (∀ x, r = some x → holds s k = some x)
  could : ∀ {s k}, inv s → E.couldExist s k = false → ∀ ω, (E.lookup s ω k).2.2 = none
  found : ∀ {s ω k v}, inv s → must s k = some v → good s ω k → (E.lookup s ω k).2 = (.ok, some v)
  absent : ∀ {s ω k}, inv s → holds s k = none → good s ω k → (E.lookup s ω k).2.1 = .notFound

/-- Completed requests. `stored`: the selected engine accepted the item. -/
inductive Ev
  | insert (k : Key) (v : Val) (stored : Bool) (st : Status)
  | remove (k : Key) (st : Status)

/-- Spec: no insert of `k` since the last acknowledged insert or completed remove failed after storing the item (status BadState). -/
def clean (k : Key) : List Ev → Bool
  | [] => true
  | .insert k' _ stored st :: tr => if k' = k ∧ stored = true then decide (st = .ok) else clean k tr
  | .remove k' st :: tr => if k' = k ∧ (st = .ok ∨ st = .notFound) then true else clean k tr

/-- Spec: values that a lookup of `k` may return after the requests in `tr` (newest first). -/
def allowed (k : Key) : List Ev → Val → Prop
  | [], _ => False
  | .insert k' v stored st :: tr, x =>
    if k' = k ∧ stored = true then (x = v ∨ (st ≠ .ok ∧ allowed k tr x)) else allowed k tr x
  | .remove k' st :: tr, x =>
    if k' = k ∧ (st = .ok ∨ st = .notFound) ∧ clean k tr = true then False else allowed k tr x

/-- A request in progress: the variables captured by its job (EnginePair.cpp:130, 239-240), plus (ghost) the outcome of the insertion
into the selected engine. -/
inductive Job
  | ins (v : Val) (skip : Bool) (eng : Option Status)
  | rem (skip : Bool)

structure St (L S : Engine) where
  p : Pair L S
  jobs : Key → Option Job
  tr : List Ev

def upd (f : Key → Option Job) (k : Key) (j : Option Job) : Key → Option Job := fun k' => if k' = k then j else f k'

variable {L S : Engine} (cL : Contract L) (cS : Contract S) (maxSmall : Nat)

/-- All executions: requests for different keys interleave arbitrarily at the granularity of attempts (each attempt with any outcome
of the engines); requests for one key run one at a time (guaranteed by the request scheduler); at any time either engine may lose
content (eviction, reclaim, restart, reset). -/
inductive Reach : St L S → Prop
  | init {p} : cL.inv p.large → cS.inv p.small → (∀ k, cL.holds p.large k = none) → (∀ k, cS.holds p.small k = none) →
      Reach ⟨p, fun _ => none, []⟩
  | startInsert {s k v} : Reach s → s.jobs k = none → Reach { s with jobs := upd s.jobs k (some (.ins v false none)) }
  | startRemove {s k} : Reach s → s.jobs k = none → Reach { s with jobs := upd s.jobs k (some (.rem false)) }
  | insertRetry {s k v skip eng ωL ωS p sk e} : Reach s → s.jobs k = some (.ins v skip eng) →
      insertInternal maxSmall s.p ωL ωS k v skip = some (p, sk, .retry, e) →
      Reach { s with p := p, jobs := upd s.jobs k (some (.ins v sk (e <|> eng))) }
  | insertDone {s k v skip eng ωL ωS p sk st e} : Reach s → s.jobs k = some (.ins v skip eng) →
      insertInternal maxSmall s.p ωL ωS k v skip = some (p, sk, st, e) → st ≠ .retry →
      Reach ⟨p, upd s.jobs k none, .insert k v (decide ((e <|> eng) = some .ok)) st :: s.tr⟩
  | removeRetry {s k skip ωL ωS p sk} : Reach s → s.jobs k = some (.rem skip) → removeInternal s.p ωL ωS k skip = (p, sk, .retry) →
      Reach { s with p := p, jobs := upd s.jobs k (some (.rem sk)) }
  | removeDone {s k skip ωL ωS p sk st} : Reach s → s.jobs k = some (.rem skip) → removeInternal s.p ωL ωS k skip = (p, sk, st) →
      st ≠ .retry → Reach ⟨p, upd s.jobs k none, .remove k st :: s.tr⟩
  | lookup {s k skip ωL ωS p sk st r} : Reach s → lookupInternal s.p ωL ωS k skip = (p, sk, st, r) → Reach { s with p := p }
  | lookupSync {s k ωLs ωSs p st r} : Reach s → EnginePair.lookupSync s.p k ωLs ωSs = some (p, st, r) → Reach { s with p := p }
  | lose {s p} : Reach s → cL.inv p.large → cS.inv p.small → (∀ k, Le (cL.holds p.large k) (cL.holds s.p.large k)) →
      (∀ k, Le (cS.holds p.small k) (cS.holds s.p.small k)) → Reach { s with p := p }

/-! ### Invariant -/

def Sub (a : Option Val) (P : Val → Prop) : Prop := ∀ x, a = some x → P x

theorem Le.sub {a b P} (h : Le a b) (hs : Sub b P) : Sub a P := by
  intro x hx; rcases h with h | h
  · rw [h] at hx; cases hx
  · exact hs x (h ▸ hx)

theorem Le.none {a b} (h : Le a b) (hb : b = none) : a = none := by rcases h with h | h; exact h; rw [h, hb]
theorem Le.refl (a) : Le a a := Or.inr rfl
theorem Le.trans {a b c} (h : Le a b) (h' : Le b c) : Le a c := by
  rcases h with h | h
  · exact Or.inl h
  · rw [h]; exact h'

structure Base (hl hs : Option Val) (P : Val → Prop) (cl : Bool) : Prop where
  l : Sub hl P
  s : Sub hs P
  x : cl = true → hl = none ∨ hs = none

theorem base_empty (P cl) : Base none none P cl := ⟨fun x hx => (nomatch hx), fun x hx => (nomatch hx), fun _ => Or.inl rfl⟩

theorem Base.mono {hl hs hl' hs' P cl} (h : Base hl hs P cl) (a : Le hl' hl) (b : Le hs' hs) : Base hl' hs' P cl :=
  ⟨a.sub h.l, b.sub h.s, fun c => (h.x c).imp (fun h => a.none h) (fun h => b.none h)⟩

/-- Content of the selected and of the other engine. -/
def tgt (k : Key) (v : Val) (hl hs : Option Val) : Option Val := if isItemLarge maxSmall k v then hl else hs
def oth (k : Key) (v : Val) (hl hs : Option Val) : Option Val := if isItemLarge maxSmall k v then hs else hl

def KeyInv (k : Key) (hl hs : Option Val) (j : Option Job) (tr : List Ev) : Prop :=
  match j with
  | none => Base hl hs (allowed k tr) (clean k tr)
  | some (.ins v true (some .ok)) => Sub (tgt maxSmall k v hl hs) (· = v) ∧ Sub (oth maxSmall k v hl hs) (allowed k tr)
  | some (.ins _ true e) => e ≠ none ∧ Base hl hs (allowed k tr) (clean k tr)
  | some (.ins _ false e) => e ≠ some .ok ∧ Base hl hs (allowed k tr) (clean k tr)
  | some (.rem false) => Base hl hs (allowed k tr) (clean k tr)
  | some (.rem true) => hs = none ∧ Base hl hs (allowed k tr) (clean k tr)

theorem KeyInv.mono {k hl hs j tr hl' hs'} (h : KeyInv maxSmall k hl hs j tr) (a : Le hl' hl) (b : Le hs' hs) :
    KeyInv maxSmall k hl' hs' j tr := by
  unfold KeyInv at h ⊢
  split at h
  · exact h.mono a b
  · refine ⟨Le.sub ?_ h.1, Le.sub ?_ h.2⟩
    · unfold tgt; split; exact a; exact b
    · unfold oth; split; exact b; exact a
  · exact ⟨h.1, h.2.mono a b⟩
  · exact ⟨h.1, h.2.mono a b⟩
  · exact h.mono a b
  · exact ⟨b.none h.1, h.2.mono a b⟩

structure Inv (s : St L S) : Prop where
  l : cL.inv s.p.large
  sm : cS.inv s.p.small
  key : ∀ k, KeyInv maxSmall k (cL.holds s.p.large k) (cS.holds s.p.small k) (s.jobs k) s.tr

theorem inv_lose {s : St L S} (h : Inv cL cS maxSmall s) {p : Pair L S} (hl : cL.inv p.large) (hs : cS.inv p.small)
    (a : ∀ k, Le (cL.holds p.large k) (cL.holds s.p.large k)) (b : ∀ k, Le (cS.holds p.small k) (cS.holds s.p.small k)) :
    Inv cL cS maxSmall { s with p := p } :=
  ⟨hl, hs, fun k => (h.key k).mono maxSmall (a k) (b k)⟩

/-- Events of other keys do not matter. -/
theorem allowed_insert_ne {k k' : Key} {v b st tr} (h : k' ≠ k) : allowed k (.insert k' v b st :: tr) = allowed k tr := by
  funext x; simp only [allowed, h, false_and, if_false]
theorem clean_insert_ne {k k' : Key} {v b st tr} (h : k' ≠ k) : clean k (.insert k' v b st :: tr) = clean k tr := by
  simp only [clean, h, false_and, if_false]
theorem allowed_remove_ne {k k' : Key} {st tr} (h : k' ≠ k) : allowed k (.remove k' st :: tr) = allowed k tr := by
  funext x; simp only [allowed, h, false_and, if_false]
theorem clean_remove_ne {k k' : Key} {st tr} (h : k' ≠ k) : clean k (.remove k' st :: tr) = clean k tr := by
  simp only [clean, h, false_and, if_false]

theorem KeyInv.congr {k hl hs j tr tr'} (h : KeyInv maxSmall k hl hs j tr) (ha : allowed k tr' = allowed k tr) (hc : clean k tr' = clean k tr) :
    KeyInv maxSmall k hl hs j tr' := by
  unfold KeyInv at h ⊢; rw [ha, hc]; exact h

/-- Effect of one attempt of an insert, per key. -/
structure InsEff (p p' : Pair L S) (k : Key) (v : Val) (skip sk : Bool) (st : Status) (e : Option Status) : Prop where
  l : cL.inv p'.large
  s : cS.inv p'.small
  other : ∀ k', k' ≠ k → Le (cL.holds p'.large k') (cL.holds p.large k') ∧ Le (cS.holds p'.small k') (cS.holds p.small k')
  /-- selected engine -/
  tgtOk : e = some .ok → Le (tgt maxSmall k v (cL.holds p'.large k) (cS.holds p'.small k)) (some v)
  tgtNo : e ≠ some .ok →
    Le (tgt maxSmall k v (cL.holds p'.large k) (cS.holds p'.small k)) (tgt maxSmall k v (cL.holds p.large k) (cS.holds p.small k))
  oth : Le (oth maxSmall k v (cL.holds p'.large k) (cS.holds p'.small k)) (oth maxSmall k v (cL.holds p.large k) (cS.holds p.small k))
  othOk : st = .ok → EnginePair.oth maxSmall k v (cL.holds p'.large k) (cS.holds p'.small k) = none
  /-- flags -/
  eSkip : skip = true → e = none ∧ sk = true
  eNot : skip = false → e ≠ none ∧ (sk = true ↔ e ≠ some .retry) ∧ (e = some .retry → st = .retry)

theorem rest_eff {p p' : Pair L S} {ωL ωS k v status sk st} (hl : cL.inv p.large) (hs : cS.inv p.small)
    (h : insertRest maxSmall p ωL ωS k v status = (p', sk, st)) :
    cL.inv p'.large ∧ cS.inv p'.small ∧
    (∀ k', k' ≠ k → Le (cL.holds p'.large k') (cL.holds p.large k') ∧ Le (cS.holds p'.small k') (cS.holds p.small k')) ∧
    Le (tgt maxSmall k v (cL.holds p'.large k) (cS.holds p'.small k)) (tgt maxSmall k v (cL.holds p.large k) (cS.holds p.small k)) ∧
    Le (oth maxSmall k v (cL.holds p'.large k) (cS.holds p'.small k)) (oth maxSmall k v (cL.holds p.large k) (cS.holds p.small k)) ∧
    (st = .ok → oth maxSmall k v (cL.holds p'.large k) (cS.holds p'.small k) = none) ∧ sk = true ∧
    (st = .ok → status = .ok ∧ tgt maxSmall k v (cL.holds p'.large k) (cS.holds p'.small k) = tgt maxSmall k v (cL.holds p.large k) (cS.holds p.small k)) := by
  have hrem : ∀ q rs, secondRemove maxSmall p ωL ωS k v = (q, rs) →
      cL.inv q.large ∧ cS.inv q.small ∧
      (∀ k', Le (cL.holds q.large k') (cL.holds p.large k') ∧ Le (cS.holds q.small k') (cS.holds p.small k')) ∧
      (rs = .ok ∨ rs = .notFound → oth maxSmall k v (cL.holds q.large k) (cS.holds q.small k) = none) ∧
      (tgt maxSmall k v (cL.holds q.large k) (cS.holds q.small k) = tgt maxSmall k v (cL.holds p.large k) (cS.holds p.small k)) := by
    intro q rs hq
    unfold secondRemove at hq
    unfold oth tgt
    cases hb : isItemLarge maxSmall k v with
    | true =>
      simp only [hb, if_true, Prod.mk.injEq] at hq
      obtain ⟨rfl, rfl⟩ := hq
      obtain ⟨a, b, c⟩ := cS.remove_spec hs (s' := (S.remove p.small ωS k).1) (st := (S.remove p.small ωS k).2) (ω := ωS) (k := k) rfl
      exact ⟨hl, a, fun k' => ⟨Le.refl _, b k'⟩, fun h => by simpa using c h, rfl⟩
    | false =>
      simp only [hb, Bool.false_eq_true, if_false, Prod.mk.injEq] at hq
      obtain ⟨rfl, rfl⟩ := hq
      obtain ⟨a, b, c⟩ := cL.remove_spec hl (s' := (L.remove p.large ωL k).1) (st := (L.remove p.large ωL k).2) (ω := ωL) (k := k) rfl
      exact ⟨a, hs, fun k' => ⟨b k', Le.refl _⟩, fun h => by simpa using c h, rfl⟩
  have key : ∀ q : Pair L S, (∀ k', Le (cL.holds q.large k') (cL.holds p.large k') ∧ Le (cS.holds q.small k') (cS.holds p.small k')) →
      Le (tgt maxSmall k v (cL.holds q.large k) (cS.holds q.small k)) (tgt maxSmall k v (cL.holds p.large k) (cS.holds p.small k)) ∧
      Le (oth maxSmall k v (cL.holds q.large k) (cS.holds q.small k)) (oth maxSmall k v (cL.holds p.large k) (cS.holds p.small k)) := by
    intro q hq
    unfold tgt oth
    constructor
    · split; exact (hq k).1; exact (hq k).2
    · split; exact (hq k).2; exact (hq k).1
  unfold insertRest at h
  by_cases hd : status = .deviceError
  · simp only [hd, ne_eq, not_true_eq_false, if_false, Prod.mk.injEq] at h
    obtain ⟨rfl, rfl, rfl⟩ := h
    exact ⟨hl, hs, fun _ _ => ⟨Le.refl _, Le.refl _⟩, Le.refl _, Le.refl _, by simp, rfl, by simp⟩
  · simp only [ne_eq, hd, not_false_eq_true, if_true] at h
    generalize hq : secondRemove maxSmall p ωL ωS k v = qq at h
    obtain ⟨q, rs⟩ := qq
    obtain ⟨a, b, c, d, e⟩ := hrem q rs hq
    obtain ⟨f, g⟩ := key q c
    simp only at h
    split at h
    · simp only [Prod.mk.injEq] at h; obtain ⟨rfl, rfl, rfl⟩ := h
      exact ⟨a, b, fun k' _ => c k', f, g, by simp, rfl, by simp⟩
    · split at h
      · simp only [Prod.mk.injEq] at h; obtain ⟨rfl, rfl, rfl⟩ := h
        exact ⟨a, b, fun k' _ => c k', f, g, by simp, rfl, by simp⟩
      · rename_i h1 h2
        simp only [Prod.mk.injEq] at h; obtain ⟨rfl, rfl, rfl⟩ := h
        have h3 : rs = .ok ∨ rs = .notFound := by
          by_cases h4 : rs = .ok
          · exact Or.inl h4
          · exact Or.inr (by by_cases h5 : rs = .notFound; exact h5; exact absurd ⟨h4, h5⟩ h2)
        exact ⟨a, b, fun k' _ => c k', f, g, fun _ => d h3, rfl, fun hst => ⟨hst, e⟩⟩

/-- Configuration: every item routed to an engine fits it (EnginePair::validate for the small engine), and the small engine reports a
removal only if it held the key. -/
structure Cfg : Prop where
  precise : ∀ {s ω k s'}, cS.inv s → S.remove s ω k = (s', .ok) → cS.holds s k ≠ none
  large : ∀ k v, isItemLarge maxSmall k v = true → cL.fits k v
  small : ∀ k v, isItemLarge maxSmall k v = false → cS.fits k v

theorem insert_eff (hc : Cfg cL cS maxSmall) {p : Pair L S} {ωL ωS k v skip} (hl : cL.inv p.large) (hs : cS.inv p.small) :
    ∃ p' sk st e, insertInternal maxSmall p ωL ωS k v skip = some (p', sk, st, e) ∧ InsEff cL cS maxSmall p p' k v skip sk st e := by
  cases skip with
  | true =>
    unfold insertInternal
    simp only [Bool.not_true, Bool.false_eq_true, if_false]
    generalize hr : insertRest maxSmall p ωL ωS k v .ok = r
    obtain ⟨p', sk, st⟩ := r
    obtain ⟨a, b, c, d, e, f, g, _⟩ := rest_eff cL cS maxSmall hl hs hr
    exact ⟨_, _, _, _, rfl, a, b, c, by simp, fun _ => d, e, f, fun _ => ⟨rfl, g⟩, by simp⟩
  | false =>
    unfold insertInternal
    simp only [Bool.not_false, if_true]
    have hfi : ∃ q status, firstInsert maxSmall p ωL ωS k v = some (q, status) ∧ cL.inv q.large ∧ cS.inv q.small ∧
        (∀ k', k' ≠ k → Le (cL.holds q.large k') (cL.holds p.large k') ∧ Le (cS.holds q.small k') (cS.holds p.small k')) ∧
        (status = .ok → Le (tgt maxSmall k v (cL.holds q.large k) (cS.holds q.small k)) (some v)) ∧
        (status ≠ .ok → Le (tgt maxSmall k v (cL.holds q.large k) (cS.holds q.small k)) (tgt maxSmall k v (cL.holds p.large k) (cS.holds p.small k))) ∧
        (oth maxSmall k v (cL.holds q.large k) (cS.holds q.small k)) = (oth maxSmall k v (cL.holds p.large k) (cS.holds p.small k)) := by
      unfold firstInsert tgt oth
      cases hb : isItemLarge maxSmall k v with
      | true =>
        simp only [if_true]
        have hf := hc.large k v hb
        cases hi : L.insert p.large ωL k v with
        | none => exact absurd hi (cL.insert_def hl hf)
        | some r =>
          obtain ⟨s', st⟩ := r
          obtain ⟨a, b, c, d⟩ := cL.insert_spec hl hf hi
          exact ⟨_, _, rfl, a, hs, fun k' hk => ⟨b k' hk, Le.refl _⟩, fun h => (c h).1, d, rfl⟩
      | false =>
        simp only [Bool.false_eq_true, if_false]
        have hf := hc.small k v hb
        cases hi : S.insert p.small ωS k v with
        | none => exact absurd hi (cS.insert_def hs hf)
        | some r =>
          obtain ⟨s', st⟩ := r
          obtain ⟨a, b, c, d⟩ := cS.insert_spec hs hf hi
          exact ⟨_, _, rfl, hl, a, fun k' hk => ⟨Le.refl _, b k' hk⟩, fun h => (c h).1, d, rfl⟩
    obtain ⟨q, status, h1, h2, h3, h4, h5, h6, h7⟩ := hfi
    rw [h1]
    simp only
    by_cases hst : status = .retry
    · simp only [hst, if_true]
      subst hst
      exact ⟨_, _, _, _, rfl, h2, h3, h4, by simp, fun _ => h6 (by simp), by rw [h7]; exact Le.refl _, by simp, by simp, by simp⟩
    · simp only [hst, if_false]
      generalize hr : insertRest maxSmall q ωL ωS k v status = r
      obtain ⟨p', sk, st⟩ := r
      obtain ⟨a, b, c, d, e, f, g, _⟩ := rest_eff cL cS maxSmall h2 h3 hr
      refine ⟨_, _, _, _, rfl, a, b, ?_, ?_, ?_, ?_, f, by simp, ?_⟩
      · intro k' hk; exact ⟨(c k' hk).1.trans (h4 k' hk).1, (c k' hk).2.trans (h4 k' hk).2⟩
      · intro he; injection he with he; exact d.trans (h5 he)
      · intro he; exact d.trans (h6 (fun hx => he (by rw [hx])))
      · rw [← h7]; exact e
      · intro _; refine ⟨by simp, ?_, ?_⟩
        · simp [g, hst]
        · intro he; injection he with he; exact absurd he hst

/-- Recombine selected/other into large/small. -/
theorem base_of {k v hl hs P cl} (h1 : Sub (tgt maxSmall k v hl hs) P) (h2 : Sub (oth maxSmall k v hl hs) P)
    (h3 : cl = true → tgt maxSmall k v hl hs = none ∨ oth maxSmall k v hl hs = none) : Base hl hs P cl := by
  unfold tgt oth at *
  cases hb : isItemLarge maxSmall k v with
  | true => simp only [hb, if_true] at *; exact ⟨h1, h2, h3⟩
  | false => simp only [hb, Bool.false_eq_true, if_false] at *; exact ⟨h2, h1, fun c => (h3 c).symm⟩

theorem base_to {k v hl hs P cl} (h : Base hl hs P cl) : Sub (tgt maxSmall k v hl hs) P ∧ Sub (oth maxSmall k v hl hs) P ∧
    (cl = true → tgt maxSmall k v hl hs = none ∨ oth maxSmall k v hl hs = none) := by
  unfold tgt oth
  cases hb : isItemLarge maxSmall k v with
  | true => simp only [if_true]; exact ⟨h.l, h.s, h.x⟩
  | false => simp only [Bool.false_eq_true, if_false]; exact ⟨h.s, h.l, fun c => (h.x c).symm⟩

theorem base_mono' {k v hl hs hl' hs' P cl} (h : Base hl hs P cl) (a : Le (tgt maxSmall k v hl' hs') (tgt maxSmall k v hl hs))
    (b : Le (oth maxSmall k v hl' hs') (oth maxSmall k v hl hs)) : Base hl' hs' P cl := by
  obtain ⟨h1, h2, h3⟩ := base_to maxSmall (k := k) (v := v) h
  exact base_of maxSmall (a.sub h1) (b.sub h2) (fun c => (h3 c).imp (fun h => a.none h) (fun h => b.none h))

/-- Facts about the job before an attempt. -/
theorem ins_pre {k hl hs v skip eng tr} (h : KeyInv maxSmall k hl hs (some (.ins v skip eng)) tr) :
    (skip = true ∧ eng = some .ok ∧ Sub (tgt maxSmall k v hl hs) (· = v) ∧ Sub (oth maxSmall k v hl hs) (allowed k tr)) ∨
    (eng ≠ some .ok ∧ (skip = true → eng ≠ none) ∧ Base hl hs (allowed k tr) (clean k tr)) := by
  unfold KeyInv at h
  cases skip with
  | false => exact Or.inr ⟨h.1, by simp, h.2⟩
  | true =>
    by_cases he : eng = some .ok
    · subst he; exact Or.inl ⟨rfl, rfl, h⟩
    · refine Or.inr ⟨he, ?_⟩
      split at h
      · rename_i hx; cases hx
      · rename_i hx; injection hx with hx; injection hx with _ _ hx; exact absurd hx he
      · rename_i hx; injection hx with hx; injection hx with hx1 hx2 hx3; subst hx3; exact ⟨fun _ => h.1, h.2⟩
      · rename_i hx; injection hx with hx; injection hx with _ hx; cases hx
      · rename_i hx; injection hx with hx; cases hx
      · rename_i hx; injection hx with hx; cases hx

/-- What holds for the key after an attempt, before its bookkeeping. -/
theorem ins_post {p p' : Pair L S} {k v skip sk st e eng tr}
    (h : KeyInv maxSmall k (cL.holds p.large k) (cS.holds p.small k) (some (.ins v skip eng)) tr)
    (f : InsEff cL cS maxSmall p p' k v skip sk st e) :
    ((e <|> eng) = some .ok ∧ sk = true ∧ Sub (tgt maxSmall k v (cL.holds p'.large k) (cS.holds p'.small k)) (· = v) ∧
      Sub (oth maxSmall k v (cL.holds p'.large k) (cS.holds p'.small k)) (allowed k tr)) ∨
    ((e <|> eng) ≠ some .ok ∧ (sk = true → (e <|> eng) ≠ none) ∧ Base (cL.holds p'.large k) (cS.holds p'.small k) (allowed k tr) (clean k tr)) := by
  rcases ins_pre maxSmall h with ⟨h1, h2, h3, h4⟩ | ⟨h1, h2, h3⟩
  · obtain ⟨e1, e2⟩ := f.eSkip h1
    subst e1
    exact Or.inl ⟨by simpa using h2, e2, (f.tgtNo (by simp)).sub h3, f.oth.sub h4⟩
  · cases hsk : skip with
    | true =>
      obtain ⟨e1, e2⟩ := f.eSkip hsk
      subst e1
      exact Or.inr ⟨by simpa using h1, fun _ => by simpa using h2 hsk, base_mono' maxSmall h3 (f.tgtNo (by simp)) f.oth⟩
    | false =>
      obtain ⟨e1, e2, e3⟩ := f.eNot hsk
      have hor : (e <|> eng) = e := by cases e with | none => exact absurd rfl e1 | some x => rfl
      rw [hor]
      by_cases he : e = some .ok
      · subst he
        obtain ⟨q1, q2, q3⟩ := base_to maxSmall (k := k) (v := v) h3
        refine Or.inl ⟨rfl, e2.2 (by simp), ?_, f.oth.sub q2⟩
        intro x hx
        rcases f.tgtOk rfl with h | h
        · rw [h] at hx; cases hx
        · rw [h] at hx; injection hx with hx; exact hx.symm
      · exact Or.inr ⟨he, fun _ => e1, base_mono' maxSmall h3 (f.tgtNo he) f.oth⟩

theorem lookup_lose {s : St L S} (h : Inv cL cS maxSmall s) {k skip ωL ωS p sk st r}
    (he : lookupInternal s.p ωL ωS k skip = (p, sk, st, r)) : Inv cL cS maxSmall { s with p := p } ∧
      (∀ x, r = some x → st = .ok ∧ (cL.holds s.p.large k = some x ∨ cS.holds s.p.small k = some x)) ∧ (st = .ok → r ≠ none) := by
  obtain ⟨l1, l2, l3, l4⟩ := cL.lookup_spec h.l (s' := (L.lookup s.p.large ωL k).1) (st := (L.lookup s.p.large ωL k).2.1)
    (r := (L.lookup s.p.large ωL k).2.2) (ω := ωL) (k := k) rfl
  obtain ⟨s1, s2, s3, s4⟩ := cS.lookup_spec h.sm (s' := (S.lookup s.p.small ωS k).1) (st := (S.lookup s.p.small ωS k).2.1)
    (r := (S.lookup s.p.small ωS k).2.2) (ω := ωS) (k := k) rfl
  unfold lookupInternal at he
  cases skip with
  | true =>
    simp at he
    obtain ⟨rfl, rfl, rfl, rfl⟩ := he
    refine ⟨inv_lose cL cS maxSmall h h.l s1 (fun _ => Le.refl _) s2, fun x hx => ⟨?_, Or.inr (s4 x hx)⟩, fun hx => s3.2 hx⟩
    exact s3.1 (by rw [hx]; simp)
  | false =>
    simp at he
    split at he
    · simp at he
      obtain ⟨rfl, rfl, rfl, rfl⟩ := he
      exact ⟨inv_lose cL cS maxSmall h l1 h.sm l2 (fun _ => Le.refl _), by simp, by simp⟩
    · split at he
      · simp at he
        obtain ⟨rfl, rfl, rfl, rfl⟩ := he
        refine ⟨inv_lose cL cS maxSmall h l1 s1 l2 s2, fun x hx => ⟨?_, Or.inr (s4 x hx)⟩, fun hx => s3.2 hx⟩
        exact s3.1 (by rw [hx]; simp)
      · simp at he
        obtain ⟨rfl, rfl, rfl, rfl⟩ := he
        refine ⟨inv_lose cL cS maxSmall h l1 h.sm l2 (fun _ => Le.refl _), fun x hx => ⟨?_, Or.inl (l4 x hx)⟩, fun hx => l3.2 hx⟩
        exact l3.1 (by rw [hx]; simp)

theorem sync_small_lose {s : St L S} (k) (ωs : List S.Ω) : ∀ {q : Pair L S}, cL.inv q.large → cS.inv q.small →
    (∀ k, Le (cL.holds q.large k) (cL.holds s.p.large k)) → (∀ k, Le (cS.holds q.small k) (cS.holds s.p.small k)) →
    ∀ {p st r}, lookupSyncSmall q k ωs = some (p, st, r) →
      cL.inv p.large ∧ cS.inv p.small ∧ (∀ k, Le (cL.holds p.large k) (cL.holds s.p.large k)) ∧
      (∀ k, Le (cS.holds p.small k) (cS.holds s.p.small k)) ∧ (∀ x, r = some x → st = .ok ∧ cS.holds s.p.small k = some x) ∧
      (st = .ok → r ≠ none) := by
  induction ωs with
  | nil => intro q _ _ _ _ p st r h; cases h
  | cons ω ωs ih =>
    intro q hl hs a b p st r h
    obtain ⟨s1, s2, s3, s4⟩ := cS.lookup_spec hs (s' := (S.lookup q.small ω k).1) (st := (S.lookup q.small ω k).2.1)
      (r := (S.lookup q.small ω k).2.2) (ω := ω) (k := k) rfl
    unfold lookupSyncSmall at h
    simp only at h
    split at h
    · exact ih (q := { q with small := (S.lookup q.small ω k).1 }) hl s1 a (fun k' => (s2 k').trans (b k')) h
    · simp at h
      obtain ⟨rfl, rfl, rfl⟩ := h
      refine ⟨hl, s1, a, fun k' => (s2 k').trans (b k'), fun x hx => ⟨s3.1 (by rw [hx]; simp), ?_⟩, fun hx => s3.2 hx⟩
      rcases b k with hb | hb
      · rw [s4 x hx] at hb; cases hb
      · rw [← hb]; exact s4 x hx

theorem sync_lose {s : St L S} (k) (ωSs : List S.Ω) (ωs : List L.Ω) : ∀ {q : Pair L S}, cL.inv q.large → cS.inv q.small →
    (∀ k, Le (cL.holds q.large k) (cL.holds s.p.large k)) → (∀ k, Le (cS.holds q.small k) (cS.holds s.p.small k)) →
    ∀ {p st r}, lookupSync q k ωs ωSs = some (p, st, r) →
      cL.inv p.large ∧ cS.inv p.small ∧ (∀ k, Le (cL.holds p.large k) (cL.holds s.p.large k)) ∧
      (∀ k, Le (cS.holds p.small k) (cS.holds s.p.small k)) ∧
      (∀ x, r = some x → st = .ok ∧ (cL.holds s.p.large k = some x ∨ cS.holds s.p.small k = some x)) ∧ (st = .ok → r ≠ none) := by
  induction ωs with
  | nil => intro q _ _ _ _ p st r h; cases h
  | cons ω ωs ih =>
    intro q hl hs a b p st r h
    obtain ⟨s1, s2, s3, s4⟩ := cL.lookup_spec hl (s' := (L.lookup q.large ω k).1) (st := (L.lookup q.large ω k).2.1)
      (r := (L.lookup q.large ω k).2.2) (ω := ω) (k := k) rfl
    unfold lookupSync at h
    simp only at h
    split at h
    · exact ih (q := { q with large := (L.lookup q.large ω k).1 }) s1 hs (fun k' => (s2 k').trans (a k')) b h
    · split at h
      · obtain ⟨c1, c2, c3, c4, c5, c6⟩ := sync_small_lose cL cS (s := s) k ωSs (q := { q with large := (L.lookup q.large ω k).1 }) s1 hs
          (fun k' => (s2 k').trans (a k')) b h
        exact ⟨c1, c2, c3, c4, fun x hx => ⟨(c5 x hx).1, Or.inr (c5 x hx).2⟩, c6⟩
      · simp at h
        obtain ⟨rfl, rfl, rfl⟩ := h
        refine ⟨s1, hs, fun k' => (s2 k').trans (a k'), b, fun x hx => ⟨s3.1 (by rw [hx]; simp), Or.inl ?_⟩, fun hx => s3.2 hx⟩
        rcases a k with ha | ha
        · rw [s4 x hx] at ha; cases ha
        · rw [← ha]; exact s4 x hx

/-- Effect of a remove attempt. -/
theorem remove_eff (hc : Cfg cL cS maxSmall) {p p' : Pair L S} {ωL ωS k skip sk st} (hl : cL.inv p.large) (hs : cS.inv p.small)
    (h : removeInternal p ωL ωS k skip = (p', sk, st)) :
    cL.inv p'.large ∧ cS.inv p'.small ∧ (∀ k', Le (cL.holds p'.large k') (cL.holds p.large k') ∧ Le (cS.holds p'.small k') (cS.holds p.small k')) ∧
    (sk = true → skip = true ∨ cS.holds p'.small k = none) ∧ (skip = true → sk = true) ∧
    (st = .ok ∨ st = .notFound → (cL.holds p'.large k = none ∧ (skip = true ∨ cS.holds p'.small k = none)) ∨
      (cS.holds p.small k ≠ none ∧ cS.holds p'.small k = none)) := by
  unfold removeInternal at h
  obtain ⟨s1, s2, s3⟩ := cS.remove_spec hs (s' := (S.remove p.small ωS k).1) (st := (S.remove p.small ωS k).2) (ω := ωS) (k := k) rfl
  obtain ⟨l1, l2, l3⟩ := cL.remove_spec hl (s' := (L.remove p.large ωL k).1) (st := (L.remove p.large ωL k).2) (ω := ωL) (k := k) rfl
  cases skip with
  | true =>
    simp at h
    obtain ⟨rfl, rfl, rfl⟩ := h
    exact ⟨l1, hs, fun k' => ⟨l2 k', Le.refl _⟩, by simp, by simp, fun h => Or.inl ⟨l3 h, Or.inl rfl⟩⟩
  | false =>
    simp at h
    split at h
    · rename_i hn
      simp at h
      obtain ⟨rfl, rfl, rfl⟩ := h
      exact ⟨l1, s1, fun k' => ⟨l2 k', s2 k'⟩, fun _ => Or.inr (s3 (Or.inr hn)), by simp, fun h => Or.inl ⟨l3 h, Or.inr (s3 (Or.inr hn))⟩⟩
    · rename_i hn
      simp at h
      obtain ⟨rfl, rfl, rfl⟩ := h
      refine ⟨hl, s1, fun k' => ⟨Le.refl _, s2 k'⟩, by simp, by simp, fun h => Or.inr ⟨?_, s3 h⟩⟩
      rcases h with h | h
      · exact hc.precise hs (Prod.ext rfl h)
      · exact absurd h hn

theorem base_none {k hl hs tr} (h : KeyInv maxSmall k hl hs (some (.rem skip)) tr) :
    (skip = true → hs = none) ∧ Base hl hs (allowed k tr) (clean k tr) := by
  unfold KeyInv at h
  cases skip with
  | true => exact ⟨fun _ => h.1, h.2⟩
  | false => exact ⟨by simp, h⟩

theorem keyInv_ins_ok {k hl hs v tr} (h1 : Sub (tgt maxSmall k v hl hs) (· = v)) (h2 : Sub (oth maxSmall k v hl hs) (allowed k tr)) :
    KeyInv maxSmall k hl hs (some (.ins v true (some .ok))) tr := ⟨h1, h2⟩

theorem keyInv_ins_no {k hl hs v sk e tr} (h0 : e ≠ some .ok) (h1 : sk = true → e ≠ none) (h2 : Base hl hs (allowed k tr) (clean k tr)) :
    KeyInv maxSmall k hl hs (some (.ins v sk e)) tr := by
  unfold KeyInv
  cases sk with
  | false => exact ⟨h0, h2⟩
  | true =>
    split
    · rename_i hx; cases hx
    · rename_i hx; injection hx with hx; injection hx with _ _ hx; exact absurd hx h0
    · rename_i hx; injection hx with hx; injection hx with hx1 hx2 hx3; subst hx3; exact ⟨h1 rfl, h2⟩
    · rename_i hx; cases hx
    · rename_i hx; cases hx
    · rename_i hx; cases hx

theorem upd_self (f : Key → Option Job) (k j) : upd f k j k = j := if_pos rfl
theorem upd_ne (f : Key → Option Job) {k k' : Key} (j) (h : k' ≠ k) : upd f k j k' = f k' := if_neg h

theorem reach_inv (hc : Cfg cL cS maxSmall) {s : St L S} (h : Reach cL cS maxSmall s) : Inv cL cS maxSmall s := by
  induction h with
  | init h1 h2 h3 h4 =>
    refine ⟨h1, h2, fun k => ?_⟩
    show Base _ _ _ _
    rw [h3, h4]
    exact base_empty _ _
  | @startInsert s k v _ hj ih =>
    refine ⟨ih.l, ih.sm, fun k' => ?_⟩
    by_cases hk : k' = k
    · subst hk
      have := ih.key k'
      rw [hj] at this
      simp only [upd_self]
      exact keyInv_ins_no maxSmall (by simp) (by simp) this
    · simp only [upd_ne _ _ hk]; exact ih.key k'
  | @startRemove s k _ hj ih =>
    refine ⟨ih.l, ih.sm, fun k' => ?_⟩
    by_cases hk : k' = k
    · subst hk
      have := ih.key k'
      rw [hj] at this
      simp only [upd_self]
      exact this
    · simp only [upd_ne _ _ hk]; exact ih.key k'
  | @insertRetry s k v skip eng ωL ωS p sk e _ hj he ih =>
    obtain ⟨p', sk', st', e', h1, f⟩ := insert_eff cL cS maxSmall hc (p := s.p) (ωL := ωL) (ωS := ωS) (k := k) (v := v) (skip := skip) ih.l ih.sm
    rw [he] at h1
    simp only [Option.some.injEq, Prod.mk.injEq] at h1
    obtain ⟨rfl, rfl, rfl, rfl⟩ := h1
    refine ⟨f.l, f.s, fun k' => ?_⟩
    by_cases hk : k' = k
    · subst hk
      have hk0 := ih.key k'
      rw [hj] at hk0
      simp only [upd_self]
      rcases ins_post cL cS maxSmall hk0 f with ⟨a, b, c, d⟩ | ⟨a, b, c⟩
      · rw [a, b]; exact keyInv_ins_ok maxSmall c d
      · exact keyInv_ins_no maxSmall a b c
    · simp only [upd_ne _ _ hk]
      exact (ih.key k').mono maxSmall (f.other k' hk).1 (f.other k' hk).2
  | @insertDone s k v skip eng ωL ωS p sk st e _ hj he hst ih =>
    obtain ⟨p', sk', st', e', h1, f⟩ := insert_eff cL cS maxSmall hc (p := s.p) (ωL := ωL) (ωS := ωS) (k := k) (v := v) (skip := skip) ih.l ih.sm
    rw [he] at h1
    simp only [Option.some.injEq, Prod.mk.injEq] at h1
    obtain ⟨rfl, rfl, rfl, rfl⟩ := h1
    refine ⟨f.l, f.s, fun k' => ?_⟩
    by_cases hk : k' = k
    · subst hk
      have hk0 := ih.key k'
      rw [hj] at hk0
      simp only [upd_self]
      show Base _ _ _ _
      rcases ins_post cL cS maxSmall hk0 f with ⟨a, b, c, d⟩ | ⟨a, b, c⟩
      · have hal : allowed k' (.insert k' v (decide ((e <|> eng) = some Status.ok)) st :: s.tr) = fun x => x = v ∨ (st ≠ .ok ∧ allowed k' s.tr x) := by
          funext x; simp only [allowed, a, decide_true, and_self, if_true]
        have hcl : clean k' (.insert k' v (decide ((e <|> eng) = some Status.ok)) st :: s.tr) = decide (st = .ok) := by
          simp only [clean, a, decide_true, and_self, if_true]
        rw [hal, hcl]
        refine base_of maxSmall (k := k') (v := v) (fun x hx => Or.inl (c x hx)) ?_ ?_
        · intro x hx
          by_cases hs : st = .ok
          · rw [f.othOk hs] at hx; cases hx
          · exact Or.inr ⟨hs, d x hx⟩
        · intro hs; exact Or.inr (f.othOk (by simpa using hs))
      · have hal : allowed k' (.insert k' v (decide ((e <|> eng) = some Status.ok)) st :: s.tr) = allowed k' s.tr := by
          funext x; simp only [allowed, a, decide_false, Bool.false_eq_true, and_false, if_false]
        have hcl : clean k' (.insert k' v (decide ((e <|> eng) = some Status.ok)) st :: s.tr) = clean k' s.tr := by
          simp only [clean, a, decide_false, Bool.false_eq_true, and_false, if_false]
        rw [hal, hcl]; exact c
    · simp only [upd_ne _ _ hk]
      exact ((ih.key k').mono maxSmall (f.other k' hk).1 (f.other k' hk).2).congr maxSmall (allowed_insert_ne (Ne.symm hk)) (clean_insert_ne (Ne.symm hk))
  | @removeRetry s k skip ωL ωS p sk _ hj he ih =>
    obtain ⟨h1, h2, h3, h4, h5, h6⟩ := remove_eff cL cS maxSmall hc ih.l ih.sm he
    refine ⟨h1, h2, fun k' => ?_⟩
    by_cases hk : k' = k
    · subst hk
      have hk0 := ih.key k'
      rw [hj] at hk0
      obtain ⟨b1, b2⟩ := base_none maxSmall hk0
      simp only [upd_self]
      have b3 := b2.mono (h3 k').1 (h3 k').2
      cases hsk : sk with
      | false => exact b3
      | true =>
        refine ⟨?_, b3⟩
        rcases h4 hsk with h | h
        · exact (h3 k').2.none (b1 h)
        · exact h
    · simp only [upd_ne _ _ hk]
      exact (ih.key k').mono maxSmall (h3 k').1 (h3 k').2
  | @removeDone s k skip ωL ωS p sk st _ hj he hst ih =>
    obtain ⟨h1, h2, h3, h4, h5, h6⟩ := remove_eff cL cS maxSmall hc ih.l ih.sm he
    refine ⟨h1, h2, fun k' => ?_⟩
    by_cases hk : k' = k
    · subst hk
      have hk0 := ih.key k'
      rw [hj] at hk0
      obtain ⟨b1, b2⟩ := base_none maxSmall hk0
      have b3 := b2.mono (h3 k').1 (h3 k').2
      simp only [upd_self]
      show Base _ _ _ _
      by_cases hs : st = .ok ∨ st = .notFound
      · have hx : cL.holds p.large k' = none ∨ cS.holds p.small k' = none := by
          rcases h6 hs with h | h
          · exact Or.inl h.1
          · exact Or.inr h.2
        by_cases hcl : clean k' s.tr = true
        · have hboth : cL.holds p.large k' = none ∧ cS.holds p.small k' = none := by
            rcases h6 hs with ⟨h, h'⟩ | ⟨h, h'⟩
            · refine ⟨h, ?_⟩
              rcases h' with h' | h'
              · exact (h3 k').2.none (b1 h')
              · exact h'
            · refine ⟨?_, h'⟩
              rcases b2.x hcl with h7 | h7
              · exact (h3 k').1.none h7
              · exact absurd h7 h
          rw [hboth.1, hboth.2]
          exact base_empty _ _
        · have hal : allowed k' (.remove k' st :: s.tr) = allowed k' s.tr := by
            funext x; simp only [allowed, hcl, Bool.false_eq_true, and_false, if_false]
          rw [hal]
          exact ⟨b3.l, b3.s, fun _ => hx⟩
      · have hal : allowed k' (.remove k' st :: s.tr) = allowed k' s.tr := by
          funext x; simp only [allowed, hs, false_and, and_false, if_false]
        have hcl : clean k' (.remove k' st :: s.tr) = clean k' s.tr := by
          simp only [clean, hs, and_false, if_false]
        rw [hal, hcl]; exact b3
    · simp only [upd_ne _ _ hk]
      exact ((ih.key k').mono maxSmall (h3 k').1 (h3 k').2).congr maxSmall (allowed_remove_ne (Ne.symm hk)) (clean_remove_ne (Ne.symm hk))
  | lookup _ he ih => exact (lookup_lose cL cS maxSmall ih he).1
  | @lookupSync s k ωLs ωSs p st r _ he ih =>
    obtain ⟨a, b, c, d, _⟩ := sync_lose cL cS (s := s) k ωSs ωLs (q := s.p) ih.l ih.sm (fun _ => Le.refl _) (fun _ => Le.refl _) he
    exact inv_lose cL cS maxSmall ih a b c d
  | lose _ h1 h2 h3 h4 ih => exact inv_lose cL cS maxSmall ih h1 h2 h3 h4

theorem key_visible {k hl hs j tr x} (h : KeyInv maxSmall k hl hs j tr) (hx : hl = some x ∨ hs = some x) :
    allowed k tr x ∨ ∃ skip eng, j = some (.ins x skip eng) := by
  unfold KeyInv at h
  have base : ∀ {cl}, Base hl hs (allowed k tr) cl → allowed k tr x := fun b => hx.elim (b.l x) (b.s x)
  split at h
  · exact Or.inl (base h)
  · rename_i v
    have hx' : tgt maxSmall k v hl hs = some x ∨ oth maxSmall k v hl hs = some x := by
      unfold tgt oth; split
      · exact hx
      · exact hx.symm
    rcases hx' with hx' | hx'
    · have := h.1 x hx'; subst this; exact Or.inr ⟨_, _, rfl⟩
    · exact Or.inl (h.2 x hx')
  · exact Or.inl (base h.2)
  · exact Or.inl (base h.2)
  · exact Or.inl (base h)
  · exact Or.inl (base h.2)

/-! ### The property theorems -/

/-- **C24, safety.** In every execution, a lookup (asynchronous attempt) that returns a value returns one that the completed requests
allow, or that of an insert of that key still in progress. -/
theorem lookup_allowed (hc : Cfg cL cS maxSmall) {s : St L S} (h : Reach cL cS maxSmall s) {k skip ωL ωS p sk st x}
    (he : lookupInternal s.p ωL ωS k skip = (p, sk, st, some x)) :
    st = .ok ∧ (allowed k s.tr x ∨ ∃ sk' eng, s.jobs k = some (.ins x sk' eng)) := by
  obtain ⟨_, h2, _⟩ := lookup_lose cL cS maxSmall (reach_inv cL cS maxSmall hc h) he
  obtain ⟨h3, h4⟩ := h2 x rfl
  exact ⟨h3, key_visible maxSmall ((reach_inv cL cS maxSmall hc h).key k) h4⟩

/-- The same for the synchronous lookup, whatever number of retries it makes. -/
theorem lookupSync_allowed (hc : Cfg cL cS maxSmall) {s : St L S} (h : Reach cL cS maxSmall s) {k ωLs ωSs p st x}
    (he : EnginePair.lookupSync s.p k ωLs ωSs = some (p, st, some x)) :
    st = .ok ∧ (allowed k s.tr x ∨ ∃ sk' eng, s.jobs k = some (.ins x sk' eng)) := by
  have hi := reach_inv cL cS maxSmall hc h
  obtain ⟨_, _, _, _, h2, _⟩ := sync_lose cL cS (s := s) k ωSs ωLs (q := s.p) hi.l hi.sm (fun _ => Le.refl _) (fun _ => Le.refl _) he
  obtain ⟨h3, h4⟩ := h2 x rfl
  exact ⟨h3, key_visible maxSmall (hi.key k) h4⟩

/-- After an acknowledged (stored) insert, and until the next request for the key completes or starts, no other value is returned. -/
theorem after_insert_only_new (hc : Cfg cL cS maxSmall) {s : St L S} (h : Reach cL cS maxSmall s) {k v tr} (hj : s.jobs k = none)
    (htr : s.tr = .insert k v true .ok :: tr) {skip ωL ωS p sk st x} (he : lookupInternal s.p ωL ωS k skip = (p, sk, st, some x)) : x = v := by
  rcases (lookup_allowed cL cS maxSmall hc h he).2 with h1 | ⟨_, _, h1⟩
  · rw [htr] at h1; simpa [allowed] using h1
  · rw [hj] at h1; cases h1

/-- After a completed remove (of a key whose last store did not end in BadState) nothing is found. -/
theorem after_remove_nothing (hc : Cfg cL cS maxSmall) {s : St L S} (h : Reach cL cS maxSmall s) {k st0 tr} (hj : s.jobs k = none)
    (htr : s.tr = .remove k st0 :: tr) (hst : st0 = .ok ∨ st0 = .notFound) (hcl : clean k tr = true) {skip ωL ωS p sk st r}
    (he : lookupInternal s.p ωL ωS k skip = (p, sk, st, r)) : r = none := by
  cases r with
  | none => rfl
  | some x =>
    rcases (lookup_allowed cL cS maxSmall hc h he).2 with h1 | ⟨_, _, h1⟩
    · rw [htr] at h1; simp [allowed, hst, hcl] at h1
    · rw [hj] at h1; cases h1

/-- A key that couldExist denies is not found. -/
theorem couldExist_sound (hc : Cfg cL cS maxSmall) {s : St L S} (h : Reach cL cS maxSmall s) {k} (hce : couldExist s.p k = false)
    {skip ωL ωS p sk st r} (he : lookupInternal s.p ωL ωS k skip = (p, sk, st, r)) : r = none := by
  have hi := reach_inv cL cS maxSmall hc h
  unfold couldExist at hce
  rw [Bool.or_eq_false_iff] at hce
  have c1 := cS.could hi.sm hce.1 ωS
  have c2 := cL.could hi.l hce.2 ωL
  unfold lookupInternal at he
  cases skip with
  | true => simp at he; rw [← he.2.2.2]; exact c1
  | false =>
    simp at he
    split at he
    · simp at he; exact he.2.2.2.symm
    · split at he
      · simp at he; rw [← he.2.2.2]; exact c1
      · simp at he; rw [← he.2.2.2]; exact c2

/-- **C24, completeness.** An insert that is acknowledged at its first attempt is found by an immediately following lookup if the
devices work. -/
theorem found_after_insert (hc : Cfg cL cS maxSmall) {s : St L S} (h : Reach cL cS maxSmall s) {k v ωL ωS p sk e}
    (he : insertInternal maxSmall s.p ωL ωS k v false = some (p, sk, .ok, e)) {ωL' ωS'}
    (gl : cL.good p.large ωL' k) (gs : cS.good p.small ωS' k) : ∃ p' sk', lookupInternal p ωL' ωS' k false = (p', sk', .ok, some v) := by
  have hi := reach_inv cL cS maxSmall hc h
  obtain ⟨p2, sk2, st2, e2, h1, f⟩ := insert_eff cL cS maxSmall hc (p := s.p) (ωL := ωL) (ωS := ωS) (k := k) (v := v) (skip := false) hi.l hi.sm
  rw [he] at h1
  simp only [Option.some.injEq, Prod.mk.injEq] at h1
  obtain ⟨rfl, rfl, rfl, rfl⟩ := h1
  have ho := f.othOk rfl
  unfold insertInternal at he
  simp only [Bool.not_false, if_true] at he
  cases hf : firstInsert maxSmall s.p ωL ωS k v with
  | none => rw [hf] at he; cases he
  | some r =>
    obtain ⟨q, status⟩ := r
    rw [hf] at he
    simp only at he
    split at he
    · simp at he
    · generalize hr : insertRest maxSmall q ωL ωS k v status = rr at he
      obtain ⟨p3, sk3, st3⟩ := rr
      simp only [Option.some.injEq, Prod.mk.injEq] at he
      obtain ⟨rfl, rfl, rfl, rfl⟩ := he
      unfold firstInsert at hf
      unfold oth at ho
      unfold insertRest secondRemove at hr
      cases hb : isItemLarge maxSmall k v with
      | true =>
        rw [hb] at hf ho hr
        simp only [if_true] at hf ho hr
        cases hin : L.insert s.p.large ωL k v with
        | none => rw [hin] at hf; cases hf
        | some r =>
          obtain ⟨s', st'⟩ := r
          rw [hin] at hf
          simp only [Option.some.injEq, Prod.mk.injEq] at hf
          obtain ⟨rfl, rfl⟩ := hf
          have hok : st' = .ok ∧ p3.large = s' := by
            split at hr
            · split at hr
              · simp at hr
              · split at hr
                · simp at hr
                · simp only [Prod.mk.injEq] at hr; exact ⟨hr.2.2, by rw [← hr.1]⟩
            · simp only [Prod.mk.injEq] at hr
              exact ⟨hr.2.2, by rw [← hr.1]⟩
          obtain ⟨rfl, h5⟩ := hok
          obtain ⟨i1, i2, i3, i4⟩ := cL.insert_spec hi.l (hc.large k v hb) hin
          have := cL.found (s := p3.large) (ω := ωL') (by rw [h5]; exact i1) (by rw [h5]; exact (i3 rfl).2) gl
          refine ⟨{ p3 with large := (L.lookup p3.large ωL' k).1 }, true, ?_⟩
          unfold lookupInternal
          simp [this]
      | false =>
        rw [hb] at hf ho hr
        simp only [Bool.false_eq_true, if_false] at hf ho hr
        cases hin : S.insert s.p.small ωS k v with
        | none => rw [hin] at hf; cases hf
        | some r =>
          obtain ⟨s', st'⟩ := r
          rw [hin] at hf
          simp only [Option.some.injEq, Prod.mk.injEq] at hf
          obtain ⟨rfl, rfl⟩ := hf
          have hok : st' = .ok ∧ p3.small = s' := by
            split at hr
            · split at hr
              · simp at hr
              · split at hr
                · simp at hr
                · simp only [Prod.mk.injEq] at hr; exact ⟨hr.2.2, by rw [← hr.1]⟩
            · simp only [Prod.mk.injEq] at hr
              exact ⟨hr.2.2, by rw [← hr.1]⟩
          obtain ⟨rfl, h5⟩ := hok
          obtain ⟨i1, i2, i3, i4⟩ := cS.insert_spec hi.sm (hc.small k v hb) hin
          have h6 := cS.found (s := p3.small) (ω := ωS') (by rw [h5]; exact i1) (by rw [h5]; exact (i3 rfl).2) gs
          have h7 := cL.absent f.l ho gl
          refine ⟨⟨(L.lookup p3.large ωL' k).1, (S.lookup p3.small ωS' k).1⟩, true, ?_⟩
          unfold lookupInternal
          simp [h6, h7]

/-! ### The engines satisfy the contract -/

/-- The no-op engine. -/
def noopContract : Contract noop where
  inv _ := True
  fits _ _ := True
  holds _ _ := none
  must _ _ := none
  good _ _ _ := True
  insert_def := by intro s ω k v _ _ h; cases h
  insert_spec := by
    intro s ω k v s' st _ _ h
    simp only [noop, Option.some.injEq, Prod.mk.injEq] at h
    obtain ⟨_, rfl⟩ := h
    exact ⟨trivial, fun _ _ => Or.inl rfl, by simp, fun _ => Or.inl rfl⟩
  remove_spec := by intro s ω k s' st _ h; exact ⟨trivial, fun _ => Or.inl rfl, fun _ => rfl⟩
  lookup_spec := by
    intro s ω k s' st r _ h
    simp only [noop, Prod.mk.injEq] at h
    obtain ⟨_, rfl, rfl⟩ := h
    exact ⟨trivial, fun _ => Or.inl rfl, by simp, by simp⟩
  could := by intro s k _ _ ω; rfl
  found := by intro s ω k v _ h; cases h
  absent := by intro s ω k _ _ _; rfl

/-- The small-object engine (with its history as a ghost component) as an `Engine`. -/
noncomputable def bighash (v : BigHash.Env) (nh tb : Nat) : Engine where
  σ := { x : List BigHash.Ev × BigHash.Eng // BigHash.Reach v nh tb x.1 x.2 }
  Ω := Bool × Option BigHash.Img
  insert s ω k val :=
    open Classical in
    if hf : BigHash.Fits v k val then
      match h : BigHash.insert v s.1.2 k val ω.1 ω.2 with
      | none => none
      | some (e', st, calls) => some (⟨(.insert k val st calls :: s.1.1, e'), .insert s.2 hf h⟩, st)
    else none
  remove s ω k :=
    let r := BigHash.remove v s.1.2 k ω.1 ω.2
    (⟨(.remove k r.2.1 r.2.2 :: s.1.1, r.1), .remove s.2 rfl⟩, r.2.1)
  lookup s ω k :=
    let r := BigHash.lookup v s.1.2 k ω.1
    (⟨(.lookup k r.2.1 :: s.1.1, r.1), .lookup s.2 rfl⟩, r.2.1, r.2.2)
  couldExist s k := BigHash.couldExist v s.1.2 k

theorem current_insert (k k' : Key) (val st calls tr) : BigHash.current k' (.insert k val st calls :: tr) =
    if k = k' then (if st = .ok then some val else none) else BigHash.current k' tr := rfl

theorem bh_lookup_status {v : BigHash.Env} {e k e' st r} (h : BigHash.lookup v e k true = (e', st, r)) : st = .ok ∧ r ≠ none ∨ st = .notFound ∧ r = none := by
  unfold BigHash.lookup at h
  simp only [BigHash.readBucket, Bool.not_true, Bool.false_eq_true, if_false] at h
  split at h
  · simp at h; right; exact ⟨h.2.1.symm, h.2.2.symm⟩
  · split at h
    · simp at h; right; exact ⟨h.2.1.symm, h.2.2.symm⟩
    · split at h
      · rename_i hx; split at hx <;> simp at hx
      · split at h
        · simp at h; right; exact ⟨h.2.1.symm, h.2.2.symm⟩
        · simp at h; left; exact ⟨h.2.1.symm, by rw [← h.2.2]; simp⟩

theorem bh_lookup_ok {v : BigHash.Env} {e k rd e' st r} (h : BigHash.lookup v e k rd = (e', st, r)) : r ≠ none ↔ st = .ok := by
  cases rd with
  | true =>
    rcases bh_lookup_status h with ⟨h1, h2⟩ | ⟨h1, h2⟩
    · exact ⟨fun _ => h1, fun _ => h2⟩
    · subst h1 h2; simp
  | false =>
    unfold BigHash.lookup at h
    simp only [BigHash.read_fail] at h
    split at h
    · simp at h; obtain ⟨_, rfl, rfl⟩ := h; simp
    · split at h
      · simp at h; obtain ⟨_, rfl, rfl⟩ := h; simp
      · simp at h; obtain ⟨_, rfl, rfl⟩ := h; simp

theorem bh_insert_some {v : BigHash.Env} {nh tb} {s : (bighash v nh tb).σ} {ω k val s' st} (h : (bighash v nh tb).insert s ω k val = some (s', st)) :
    ∃ calls, s'.1.1 = .insert k val st calls :: s.1.1 ∧ BigHash.insert v s.1.2 k val ω.1 ω.2 = some (s'.1.2, st, calls) := by
  simp only [bighash] at h
  split at h
  · split at h
    · cases h
    · rename_i e' st2 calls heq
      simp only [Option.some.injEq, Prod.mk.injEq] at h
      obtain ⟨rfl, rfl⟩ := h
      exact ⟨calls, rfl, heq⟩
  · cases h

/-- The small-object engine satisfies the contract, for every valid configuration and items up to its maximum item size
(BigHash::getMaxItemSize, BigHash.cpp:143-146). -/
noncomputable def bighashContract (v : BigHash.Env) (nh tb : Nat) (hv : v.Ok) : Contract (bighash v nh tb) where
  inv _ := True
  fits k val := k.length + val.length + (24 + (4 + 16)) ≤ v.bucketSize
  holds s k := BigHash.current k s.1.1
  must s k := BigHash.live v k s.1.1
  good _ ω _ := ω.1 = true
  insert_def := by
    intro s ω k val _ hf h
    have hf' : BigHash.Fits v k val := by unfold BigHash.Fits; omega
    obtain ⟨e', st, calls, h1, _⟩ := BigHash.insert_total hv s.2 hf' ω.1 ω.2
    simp only [bighash, dif_pos hf'] at h
    split at h
    · rename_i hx; rw [h1] at hx; cases hx
    · cases h
  insert_spec := by
    intro s ω k val s' st _ hf h
    obtain ⟨calls, h1, h2⟩ := bh_insert_some h
    rw [h1]
    refine ⟨trivial, fun k' hk => Or.inr ?_, fun hs => ?_, fun hs => Or.inl ?_⟩
    · rw [current_insert, if_neg (Ne.symm hk)]
    · subst hs
      refine ⟨Or.inr ?_, ?_⟩
      · rw [current_insert, if_pos rfl, if_pos rfl]
      · simp [BigHash.live]
    · rw [current_insert, if_pos rfl, if_neg hs]
  remove_spec := by
    intro s ω k s' st _ h
    simp only [bighash, Prod.mk.injEq] at h
    obtain ⟨rfl, rfl⟩ := h
    refine ⟨trivial, fun k' => ?_, fun _ => ?_⟩
    · simp only [BigHash.current]; split
      · exact Or.inl rfl
      · exact Or.inr rfl
    · simp only [BigHash.current, if_true]
  lookup_spec := by
    intro s ω k s' st r _ h
    simp only [bighash, Prod.mk.injEq] at h
    obtain ⟨rfl, rfl, rfl⟩ := h
    refine ⟨trivial, fun k' => Or.inr rfl, bh_lookup_ok rfl, fun x hx => ?_⟩
    exact BigHash.lookup_never_wrong hv s.2 (k := k) (rd := ω.1) (Prod.ext rfl (Prod.ext rfl hx))
  could := by
    intro s k _ hce ω
    exact BigHash.couldExist_no_false_negative hv s.2 (k := k) (rd := ω.1) rfl hce
  found := by
    intro s ω k val _ hm hg
    obtain ⟨e', h1, _⟩ := BigHash.live_is_found hv s.2 hm
    simp only [bighash]
    rw [show ω.1 = true from hg, h1]
  absent := by
    intro s ω k _ hh hg
    simp only [bighash]
    have hg' : ω.1 = true := hg
    rcases bh_lookup_status (v := v) (e := s.1.2) (k := k) (e' := (BigHash.lookup v s.1.2 k true).1)
      (st := (BigHash.lookup v s.1.2 k true).2.1) (r := (BigHash.lookup v s.1.2 k true).2.2) rfl with ⟨h1, h2⟩ | ⟨h1, h2⟩
    · exfalso
      cases hr : (BigHash.lookup v s.1.2 k true).2.2 with
      | none => exact h2 hr
      | some x =>
        have := BigHash.lookup_never_wrong hv s.2 (k := k) (rd := true) (Prod.ext rfl (Prod.ext rfl hr))
        rw [show BigHash.current k s.1.1 = none from hh] at this; cases this
    · rw [hg']; exact h1

theorem bighash_precise (v : BigHash.Env) (nh tb : Nat) (hv : v.Ok) {s : (bighash v nh tb).σ} {ω k s'}
    (h : (bighash v nh tb).remove s ω k = (s', .ok)) : (bighashContract v nh tb hv).holds s k ≠ none := by
  exact BigHash.remove_ok_current hv s.2 (Prod.ext rfl (Prod.ext (congrArg Prod.snd h) rfl))

/-- Validated configurations (EnginePair.cpp:323-334 requires smallItemMaxSize ≤ getMaxItemSize of the small engine) of the small-object
engine with any large engine that accepts every size meet the configuration hypothesis of the theorems above. -/
theorem bighash_cfg {L : Engine} (cL : Contract L) (hL : ∀ k v, cL.fits k v) (v : BigHash.Env) (nh tb : Nat) (hv : v.Ok) {maxSmall : Nat}
    (hm : maxSmall + (24 + (4 + 16)) ≤ v.bucketSize) : Cfg cL (bighashContract v nh tb hv) maxSmall :=
  ⟨fun _ h => bighash_precise v nh tb hv h, fun k v _ => hL k v, fun k val h => by
    simp only [isItemLarge, decide_eq_false_iff_not] at h
    show k.length + val.length + (24 + (4 + 16)) ≤ v.bucketSize
    omega⟩

/-! ### A flaw, and non-vacuity -/

def toyInsert (s : Key → Option Val) (ω : Bool) (k : Key) (v : Val) : Option ((Key → Option Val) × Status) :=
  if ω then some (fun k' => if k' = k then some v else s k', .ok) else some (s, .rejected)
def toyRemove (s : Key → Option Val) (ω : Bool) (k : Key) : (Key → Option Val) × Status :=
  if ω then (fun k' => if k' = k then none else s k', if (s k).isSome then .ok else .notFound) else (s, .retry)

/-- A toy engine: a map, whose oracle can make an insert be rejected and a remove be retried. -/
def toy : Engine where
  σ := Key → Option Val
  Ω := Bool
  insert := toyInsert
  remove := toyRemove
  lookup s _ k := (s, if (s k).isSome then .ok else .notFound, s k)
  couldExist s k := (s k).isSome

def toyContract : Contract toy where
  inv _ := True
  fits _ _ := True
  holds s k := s k
  must s k := s k
  good _ _ _ := True
  insert_def := by intro (s : Key → Option Val) (ω : Bool) k v _ _ h
                   have h : toyInsert s ω k v = none := h
                   unfold toyInsert at h; split at h <;> cases h
  insert_spec := by
    intro (s : Key → Option Val) (ω : Bool) k v (s' : Key → Option Val) st _ _ h
    have h : toyInsert s ω k v = some (s', st) := h
    show True ∧ (∀ k', k' ≠ k → Le (s' k') (s k')) ∧ (st = .ok → Le (s' k) (some v) ∧ s' k = some v) ∧ (st ≠ .ok → Le (s' k) (s k))
    unfold toyInsert at h
    split at h
    · simp only [Option.some.injEq, Prod.mk.injEq] at h
      obtain ⟨rfl, rfl⟩ := h
      exact ⟨trivial, fun k' hk => Or.inr (if_neg hk), fun _ => ⟨Or.inr (if_pos rfl), if_pos rfl⟩, by simp⟩
    · simp only [Option.some.injEq, Prod.mk.injEq] at h
      obtain ⟨rfl, rfl⟩ := h
      exact ⟨trivial, fun k' hk => Le.refl _, by simp, fun _ => Le.refl _⟩
  remove_spec := by
    intro (s : Key → Option Val) (ω : Bool) k (s' : Key → Option Val) st _ h
    have h : toyRemove s ω k = (s', st) := h
    show True ∧ (∀ k', Le (s' k') (s k')) ∧ (st = .ok ∨ st = .notFound → s' k = none)
    unfold toyRemove at h
    split at h
    · simp only [Prod.mk.injEq] at h
      obtain ⟨rfl, rfl⟩ := h
      refine ⟨trivial, fun k' => ?_, fun _ => if_pos rfl⟩
      by_cases hk : k' = k
      · exact Or.inl (if_pos hk)
      · exact Or.inr (if_neg hk)
    · simp only [Prod.mk.injEq] at h
      obtain ⟨rfl, rfl⟩ := h
      exact ⟨trivial, fun k' => Le.refl _, by simp⟩
  lookup_spec := by
    intro s ω k s' st r _ h
    simp only [toy, Prod.mk.injEq] at h
    obtain ⟨rfl, rfl, rfl⟩ := h
    refine ⟨trivial, fun _ => Le.refl _, ?_, fun x hx => hx⟩
    cases s k <;> simp
  could := by intro s k _ h ω; simpa [toy] using h
  found := by intro s ω k v _ h _; simp only [toy]; rw [h]; rfl
  absent := by intro s ω k _ h _; simp only [toy]; rw [show s k = none from h]; rfl

theorem toy_precise {s : toy.σ} {ω k s'} (h : toy.remove s ω k = (s', .ok)) : toyContract.holds s k ≠ none := by
  intro hn
  have h : toyRemove s ω k = (s', .ok) := h
  unfold toyRemove at h
  have hn : (s : Key → Option Val) k = none := hn
  rw [hn] at h
  split at h
  · have := congrArg Prod.snd h; cases this
  · have := congrArg Prod.snd h; cases this

theorem toy_cfg (maxSmall) : Cfg toyContract toyContract maxSmall := ⟨fun _ h => toy_precise h, fun _ _ _ => trivial, fun _ _ _ => trivial⟩

/-- **Flaw (found in the code, EnginePair.cpp:87-106).** If the selected engine rejects the item and the other engine's remove has to be
retried, the retried job skips the insertion and reports Ok: an insert is acknowledged although nothing was stored, and the value a
lookup then returns is the old one. -/
theorem acknowledged_but_stale : ∃ s : St toy toy, Reach toyContract toyContract 4 s ∧ s.jobs [1] = none ∧
    (∃ tr, s.tr = .insert [1] [2, 2] false .ok :: tr) ∧ ∃ p sk, lookupInternal s.p true true [1] false = (p, sk, .ok, some [3]) := by
  have h0 : Reach toyContract toyContract 4 (L := toy) (S := toy) ⟨⟨fun _ => none, fun _ => none⟩, fun _ => none, []⟩ :=
    .init trivial trivial (fun _ => rfl) (fun _ => rfl)
  have h1 := Reach.startInsert h0 (k := [1]) (v := [3]) rfl
  have h2 := Reach.insertDone h1 (k := [1]) (v := [3]) (skip := false) (eng := none) (ωL := true) (ωS := true) rfl rfl (by decide)
  have h3 := Reach.startInsert h2 (k := [1]) (v := [2, 2]) rfl
  have h4 := Reach.insertRetry h3 (k := [1]) (v := [2, 2]) (skip := false) (eng := none) (ωL := false) (ωS := false) rfl rfl
  have h5 := Reach.insertDone h4 (k := [1]) (v := [2, 2]) (skip := true) (eng := some .rejected) (ωL := true) (ωS := true) rfl rfl (by decide)
  exact ⟨_, h5, rfl, ⟨_, rfl⟩, _, _, rfl⟩

/-- If the other engine's remove never asks for a retry (as documented in Engine.h:65), an acknowledged insert was stored. -/
theorem ack_stored_no_retry (hno : ∀ s ω k, (L.remove s ω k).2 ≠ .retry) (hnoS : ∀ s ω k, (S.remove s ω k).2 ≠ .retry) {s : St L S}
    (h : Reach cL cS maxSmall s) {k v b tr} (htr : s.tr = .insert k v b .ok :: tr) : b = true := by
  -- no job ever has `skip = true`, and every event of an acknowledged insert is `stored`
  have rest : ∀ {p : Pair L S} {ωL ωS k v status p' sk st}, insertRest maxSmall p ωL ωS k v status = (p', sk, st) → status ≠ .retry → st ≠ .retry ∧ (st = .ok → status = .ok) := by
    intro p ωL ωS k v status p' sk st h hs
    have hr : (secondRemove maxSmall p ωL ωS k v).2 ≠ .retry := by
      unfold secondRemove; split
      · exact hnoS _ _ _
      · exact hno _ _ _
    unfold insertRest at h
    split at h
    · simp only [hr, if_false] at h
      split at h
      · simp only [Prod.mk.injEq] at h; obtain ⟨_, _, rfl⟩ := h; simp
      · simp only [Prod.mk.injEq] at h; obtain ⟨_, _, rfl⟩ := h; exact ⟨hs, id⟩
    · simp only [Prod.mk.injEq] at h; obtain ⟨_, _, rfl⟩ := h; exact ⟨hs, id⟩
  have step : ∀ {p : Pair L S} {ωL ωS k v p' sk st e}, insertInternal maxSmall p ωL ωS k v false = some (p', sk, st, e) →
      (st = .retry → sk = false) ∧ (st = .ok → e = some .ok) := by
    intro p ωL ωS k v p' sk st e h
    unfold insertInternal at h
    simp only [Bool.not_false, if_true] at h
    split at h
    · cases h
    · split at h
      · simp only [Option.some.injEq, Prod.mk.injEq] at h
        obtain ⟨_, rfl, rfl, rfl⟩ := h; simp
      · rename_i q status _ hne
        generalize hr : insertRest maxSmall q ωL ωS k v status = r at h
        obtain ⟨p2, sk2, st2⟩ := r
        simp only [Option.some.injEq, Prod.mk.injEq] at h
        obtain ⟨rfl, rfl, rfl, rfl⟩ := h
        obtain ⟨a, c⟩ := rest hr hne
        exact ⟨fun h => absurd h a, fun h => by rw [c h]⟩
  have main : (∀ k v sk e, s.jobs k = some (.ins v sk e) → sk = false) ∧ (∀ k v b, Ev.insert k v b .ok ∈ s.tr → b = true) := by
    clear htr
    induction h with
    | init => exact ⟨fun k v sk e h => (nomatch h), fun k v b h => (nomatch h)⟩
    | @startInsert s k v _ hj ih =>
      refine ⟨?_, ih.2⟩
      intro k' v' sk e h
      by_cases hk : k' = k
      · subst hk; simp only [upd_self, Option.some.injEq, Job.ins.injEq] at h; exact h.2.1.symm
      · simp only [upd_ne _ _ hk] at h; exact ih.1 _ _ _ _ h
    | @startRemove s k _ hj ih =>
      refine ⟨?_, ih.2⟩
      intro k' v' sk e h
      by_cases hk : k' = k
      · subst hk; simp [upd_self] at h
      · simp only [upd_ne _ _ hk] at h; exact ih.1 _ _ _ _ h
    | @insertRetry s k v skip eng ωL ωS p sk e _ hj he ih =>
      have := ih.1 _ _ _ _ hj; subst this
      refine ⟨?_, ih.2⟩
      intro k' v' sk' e' h
      by_cases hk : k' = k
      · subst hk; simp only [upd_self, Option.some.injEq, Job.ins.injEq] at h
        rw [← h.2.1]; exact (step he).1 rfl
      · simp only [upd_ne _ _ hk] at h; exact ih.1 _ _ _ _ h
    | @insertDone s k v skip eng ωL ωS p sk st e _ hj he hst ih =>
      have := ih.1 _ _ _ _ hj; subst this
      refine ⟨?_, ?_⟩
      · intro k' v' sk' e' h
        by_cases hk : k' = k
        · subst hk; simp [upd_self] at h
        · simp only [upd_ne _ _ hk] at h; exact ih.1 _ _ _ _ h
      · intro k' v' b' h
        rcases List.mem_cons.1 h with h | h
        · injection h with h1 h2 h3 h4
          have := (step he).2 h4.symm
          subst this; rw [h3]; simp
        · exact ih.2 _ _ _ h
    | @removeRetry s k skip ωL ωS p sk _ hj he ih =>
      refine ⟨?_, ih.2⟩
      intro k' v' sk' e' h
      by_cases hk : k' = k
      · subst hk; simp [upd_self] at h
      · simp only [upd_ne _ _ hk] at h; exact ih.1 _ _ _ _ h
    | @removeDone s k skip ωL ωS p sk st _ hj he hst ih =>
      refine ⟨?_, ?_⟩
      · intro k' v' sk' e' h
        by_cases hk : k' = k
        · subst hk; simp [upd_self] at h
        · simp only [upd_ne _ _ hk] at h; exact ih.1 _ _ _ _ h
      · intro k' v' b' h
        rcases List.mem_cons.1 h with h | h
        · cases h
        · exact ih.2 _ _ _ h
    | lookup _ _ ih => exact ih
    | lookupSync _ _ ih => exact ih
    | lose _ _ _ _ _ ih => exact ih
  exact main.2 k v b (by rw [htr]; exact List.mem_cons_self)

/-- Non-vacuity: the key moves from the small to the large engine and is then found there with its new value. -/
example : ∃ s : St toy toy, Reach toyContract toyContract 4 s ∧ s.tr.length = 2 ∧ s.p.small [1] = none ∧ s.p.large [1] = some [2, 2, 2, 2] ∧
    ∃ p sk, lookupInternal s.p true true [1] false = (p, sk, .ok, some [2, 2, 2, 2]) := by
  have h0 : Reach toyContract toyContract 4 (L := toy) (S := toy) ⟨⟨fun _ => none, fun _ => none⟩, fun _ => none, []⟩ :=
    .init trivial trivial (fun _ => rfl) (fun _ => rfl)
  have h1 := Reach.startInsert h0 (k := [1]) (v := [3]) rfl
  have h2 := Reach.insertDone h1 (k := [1]) (v := [3]) (skip := false) (eng := none) (ωL := true) (ωS := true) rfl rfl (by decide)
  have h3 := Reach.startInsert h2 (k := [1]) (v := [2, 2, 2, 2]) rfl
  have h4 := Reach.insertRetry h3 (k := [1]) (v := [2, 2, 2, 2]) (skip := false) (eng := none) (ωL := true) (ωS := false) rfl rfl
  have h5 := Reach.insertDone h4 (k := [1]) (v := [2, 2, 2, 2]) (skip := true) (eng := some .ok) (ωL := true) (ωS := true) rfl rfl (by decide)
  exact ⟨_, h5, rfl, rfl, rfl, _, _, rfl⟩

/-- Non-vacuity of the configuration hypothesis with the real small-object engine. -/
example : Cfg noopContract (bighashContract BigHash.exEnv 2 8 BigHash.exEnv_ok) 200 :=
  bighash_cfg noopContract (fun _ _ => trivial) _ _ _ _ (by decide)

end Verif.EnginePair
