/-
What a process holds, for what a later start finds.
-/
import Verif.WarmRestart.Inv

namespace Verif.WarmRestart

def Held (w : World) (x : Proc) (n : Name) : Prop := n ∈ x.names ∧ n ∈ x.att ∧ ∃ v, w.segs n = some (.data v)

def PC.all : PC → Bool
  | .nvmRead | .nvmTrunc | .nvmInit | .nvmClear | .workers | .rmInfo | .run | .sdNvm | .sdMark | .sdMark2
  | .sdInfo | .sdFill | .sdMeta | .sdMeta2 => true
  | _ => false

def PC.hasCache : PC → Bool | .attHt | .attCht | .mkHt | .mkCht => true | c => c.all
def PC.hasHt : PC → Bool | .attCht | .mkCht => true | c => c.all

def PC.hasIdx : PC → Bool
  | .nvmClear | .workers | .rmInfo | .run | .sdNvm | .sdMark | .sdMark2 | .sdInfo | .sdFill | .sdMeta | .sdMeta2 => true
  | _ => false

def PC.attaching : PC → Bool | .attInfo | .attCache | .attHt | .attCht => true | _ => false

structure LP (w : World) (x : Proc) : Prop where
  cache : x.pc.hasCache = true → Held w x .cache
  ht : x.pc.hasHt = true → Held w x .ht
  cht : x.pc.all = true → Held w x .cht
  idx : x.pc.hasIdx = true → x.cfg.nvm = true → x.cfg.idx = true → Held w x .idx
  info : x.pc = .sdFill ∨ x.pc = .sdMeta ∨ x.pc = .sdMeta2 → .info ∈ x.names ∧ .info ∈ x.att
  filled : x.pc = .sdMeta ∨ x.pc = .sdMeta2 → w.segs .info = some (.info (w.val .cache) (w.val .ht) (w.val .cht))
  ready : x.ready = true
  attCfg : x.pc.attaching = true → x.cfg.attach = true

theorem Held.same {w w' : World} {x x' : Proc} {n : Name} (h : Held w x n) (h1 : w'.segs n = w.segs n)
    (h2 : n ∈ x.names → n ∈ x'.names) (h3 : n ∈ x.att → n ∈ x'.att) : Held w' x' n :=
  ⟨h2 h.1, h3 h.2.1, by rw [h1]; exact h.2.2⟩

theorem create_names {x : Proc} {w : World} {n m : Name} (h : m ∈ x.names) : m ∈ (x.afterCreate w n).names := by
  unfold Proc.afterCreate Proc.afterRemove
  split <;> simp [h] <;> grind

theorem create_att {x : Proc} {w : World} {n m : Name} (h : m ∈ x.att) : m ∈ (x.afterCreate w n).att := by
  unfold Proc.afterCreate Proc.afterRemove
  split <;> simp [h] <;> grind

theorem remove_names {x : Proc} {w : World} {n m : Name} (hn : m ≠ n) (h : m ∈ x.names) : m ∈ (x.afterRemove w n).names := by
  unfold Proc.afterRemove
  split <;> simp [h, hn]

theorem remove_att {x : Proc} {w : World} {n m : Name} (hn : m ≠ n) (h : m ∈ x.att) : m ∈ (x.afterRemove w n).att := by
  unfold Proc.afterRemove
  split <;> simp [h, hn]

theorem afterRemove_ready (x : Proc) (w : World) (n : Name) : (x.afterRemove w n).ready = x.ready := by
  unfold Proc.afterRemove; split <;> rfl

theorem held_make {w : World} {p : Nat} {x y : Proc} {n m : Name} {v : Nat} {pc : PC} (h : Held w x m)
    (hy : y = { x.afterCreate w n with pc := pc }) : Held (w.make p x n v pc) y m := by
  subst hy
  refine ⟨create_names h.1, create_att h.2.1, ?_⟩
  show ∃ u, (if m = n then some (.data v) else w.segs m) = some (.data u)
  split
  · exact ⟨_, rfl⟩
  · exact h.2.2

theorem held_made {w : World} {p : Nat} {x y : Proc} {n : Name} {v : Nat} {pc : PC}
    (hy : y = { x.afterCreate w n with pc := pc }) : Held (w.make p x n v pc) y n := by
  subst hy
  refine ⟨by simp [Proc.afterCreate], by simp [Proc.afterCreate], v, ?_⟩
  simp [World.make, World.say, World.put, World.setProc, World.setSeg]

theorem make_proc {w : World} {p : Nat} {x y : Proc} {n : Name} {v : Nat} {pc : PC} (h : (w.make p x n v pc).proc p = some y) :
    y = { x.afterCreate w n with pc := pc } := by
  have h' : ((w.setSeg n (some (.data v))).put p { x.afterCreate w n with pc := pc }).proc p = some y := h
  rw [put_proc] at h'; cases h'; rfl

theorem unwind_proc {w : World} {p : Nat} {x y : Proc} : ¬ (w.unwind p x).proc p = some y := by
  unfold World.unwind; rw [gone_proc]; nofun

theorem refused_proc {w : World} {p : Nat} {x y : Proc} : ¬ (w.refused p x).proc p = some y := by
  unfold World.refused; rw [gone_proc]; nofun

macro "lphases" : tactic => `(tactic|
  (constructor <;> simp [PC.hasCache, PC.hasHt, PC.all, PC.hasIdx, PC.attaching, *] <;> try done))

section
variable {w : World} {p : Nat} {x x' : Proc} {ok : Bool} {v : Nat}

/-- Nothing of what the process holds changes. -/
theorem LP.carry {w' : World} (h : LP w x) (hs : w'.segs = w.segs) (h1 : x'.names = x.names) (h2 : ∀ n, n ∈ x.att → n ∈ x'.att)
    (h3 : x'.cfg = x.cfg) (h4 : x'.ready = x.ready)
    (c1 : x'.pc.hasCache = true → x.pc.hasCache = true) (c2 : x'.pc.hasHt = true → x.pc.hasHt = true)
    (c3 : x'.pc.all = true → x.pc.all = true) (c4 : x'.pc.hasIdx = true → x'.cfg.nvm = true → x.pc.hasIdx = true)
    (c5 : x'.pc = .sdFill ∨ x'.pc = .sdMeta ∨ x'.pc = .sdMeta2 → x.pc = .sdFill ∨ x.pc = .sdMeta ∨ x.pc = .sdMeta2)
    (c6 : x'.pc = .sdMeta ∨ x'.pc = .sdMeta2 → x.pc = .sdMeta ∨ x.pc = .sdMeta2)
    (c7 : x'.pc.attaching = true → x.pc.attaching = true ∨ x'.cfg.attach = true) : LP w' x' := by
  have hh : ∀ n, Held w x n → Held w' x' n := fun n hn => hn.same (by rw [hs]) (by rw [h1]; exact id) (h2 n)
  refine ⟨fun a => hh _ (h.cache (c1 a)), fun a => hh _ (h.ht (c2 a)), fun a => hh _ (h.cht (c3 a)), ?_, ?_, ?_, by rw [h4]; exact h.ready, ?_⟩
  · intro a b c; exact hh _ (h.idx (c4 a b) (h3 ▸ b) (h3 ▸ c))
  · intro a; have := h.info (c5 a); exact ⟨by rw [h1]; exact this.1, h2 _ this.2⟩
  · intro a; have := h.filled (c6 a); simp only [World.val, hs] at this ⊢; exact this
  · intro a
    rcases c7 a with h' | h'
    · rw [h3]; exact h.attCfg h'
    · exact h'

theorem lp_go (h : LP w x) (hi : PInv w p x) (hx : w.proc p = some x) (hx' : (w.go p x ok v).proc p = some x') :
    LP (w.go p x ok v) x' := by
  unfold World.go at hx' ⊢
  cases hpc : x.pc <;> simp only [hpc] at hx' ⊢
  case read =>
    have hr := h.ready
    split at hx' <;> (try split at hx') <;> (try split at hx') <;>
      first
      | exact absurd hx' refused_proc
      | (rw [put_proc] at hx'; cases hx'; cases hc : x.cfg.attach <;> lphases)
  case lock =>
    split at hx'
    · rw [put_proc] at hx'; cases hx'
      have := h.ready
      lphases
    · exact absurd hx' refused_proc
  case trunc =>
    rw [put_proc] at hx'; cases hx'
    have := h.ready
    cases hc : x.cfg.attach <;> lphases
  case attInfo =>
    have hr := h.ready
    have ha := h.attCfg (by rw [hpc]; rfl)
    split at hx'
    · split at hx'
      · rw [put_proc] at hx'; cases hx'
        lphases
      · exact absurd hx' unwind_proc
    · exact absurd hx' unwind_proc
  case attCache =>
    have hr := h.ready
    have ha := h.attCfg (by rw [hpc]; rfl)
    cases hc : w.canAttach x .cache with
    | none => cases ok <;> simp only [hc] at hx' <;> exact absurd hx' unwind_proc
    | some u =>
      cases ok <;> simp only [hc] at hx'
      · exact absurd hx' unwind_proc
      rw [put_proc] at hx'; cases hx'
      have hk := canAttach_some hc
      lphases
      exact ⟨hk.1, by simp, u, hk.2⟩
  case attHt =>
    have hr := h.ready
    have ha := h.attCfg (by rw [hpc]; rfl)
    have h1 := h.cache (by rw [hpc]; rfl)
    cases hc : w.canAttach x .ht with
    | none => cases ok <;> simp only [hc] at hx' <;> exact absurd hx' unwind_proc
    | some u =>
      cases ok <;> simp only [hc] at hx'
      · exact absurd hx' unwind_proc
      rw [put_proc] at hx'; cases hx'
      have hk := canAttach_some hc
      lphases
      · exact h1.same rfl id (List.mem_cons_of_mem _)
      · exact ⟨hk.1, by simp, u, hk.2⟩
  case attCht =>
    have hr := h.ready
    have h1 := h.cache (by rw [hpc]; rfl)
    have h2 := h.ht (by rw [hpc]; rfl)
    cases hc : w.canAttach x .cht with
    | none => cases ok <;> simp only [hc] at hx' <;> exact absurd hx' unwind_proc
    | some u =>
      cases ok <;> simp only [hc] at hx'
      · exact absurd hx' unwind_proc
      simp only [World.say] at hx'
      rw [put_proc] at hx'; cases hx'
      have hk := canAttach_some hc
      lphases
      · exact h1.same rfl id (List.mem_cons_of_mem _)
      · exact h2.same rfl id (List.mem_cons_of_mem _)
      · exact ⟨hk.1, by simp, u, hk.2⟩
  case mkCache =>
    have hy := make_proc hx'
    have hr : x'.ready = true := by rw [hy]; exact (afterRemove_ready _ _ _).trans h.ready
    have hp : x'.pc = .mkHt := by rw [hy]
    constructor <;> simp [hp, PC.hasCache, PC.hasHt, PC.all, PC.hasIdx, PC.attaching, hr]
    exact held_made hy
  case mkHt =>
    have hy := make_proc hx'
    have h1 := h.cache (by rw [hpc]; rfl)
    have hr : x'.ready = true := by rw [hy]; exact (afterRemove_ready _ _ _).trans h.ready
    have hp : x'.pc = .mkCht := by rw [hy]
    constructor <;> simp [hp, PC.hasCache, PC.hasHt, PC.all, PC.hasIdx, PC.attaching, hr]
    · exact held_make h1 hy
    · exact held_made hy
  case mkCht =>
    have hy := make_proc hx'
    have h1 := h.cache (by rw [hpc]; rfl)
    have h2 := h.ht (by rw [hpc]; rfl)
    have hr : x'.ready = true := by rw [hy]; exact (afterRemove_ready _ _ _).trans h.ready
    have hp : x'.pc = .nvmRead := by rw [hy]
    constructor <;> simp [hp, PC.hasCache, PC.hasHt, PC.all, PC.hasIdx, PC.attaching, hr]
    · exact held_make h1 hy
    · exact held_make h2 hy
    · exact held_made hy
  case nvmInit =>
    have h1 := h.cache (by rw [hpc]; rfl)
    have h2 := h.ht (by rw [hpc]; rfl)
    have h3 := h.cht (by rw [hpc]; rfl)
    have hr := h.ready
    have hfr := hi.fresh (.inr hpc)
    have reset : (w.resetNvm p x v).proc p = some x' → LP (w.resetNvm p x v) x' := by
      intro hx'
      unfold World.resetNvm at hx' ⊢
      dsimp only at hx' ⊢
      split at hx'
      · rename_i hid
        simp only [hid, if_true]
        have hy := make_proc hx'
        have e : ∀ n, Held w x n → Held (({ w with dev := v } : World).say (.wroteNvm p v)) { x with ready := true } n := fun n hn => hn
        have hr : x'.ready = true := by rw [hy]; exact (afterRemove_ready _ _ _)
        have hp : x'.pc = .nvmClear := by rw [hy]
        constructor <;> simp [hp, PC.hasCache, PC.hasHt, PC.all, PC.hasIdx, PC.attaching, hr]
        · exact held_make (e _ h1) hy
        · exact held_make (e _ h2) hy
        · exact held_make (e _ h3) hy
        · exact fun _ _ => held_made hy
      · rename_i hid
        simp only [hid, if_false]
        rw [put_proc] at hx'; cases hx'
        lphases
        · exact h1
        · exact h2
        · exact h3
    unfold World.initNvm at hx' ⊢
    split at hx'
    · rename_i hc; rw [if_pos hc]; exact reset hx'
    rename_i hc; rw [if_neg hc]
    have hf : x.fresh = false := by
      cases hf : x.fresh
      · rfl
      · exact absurd (.inl hf) hc
    obtain ⟨q, d, i, hn⟩ := hfr hf
    simp only [hn.navy] at hx' ⊢
    split at hx'
    · rename_i hc; rw [if_pos hc]; exact reset hx'
    rename_i hc; rw [if_neg hc]
    cases hid : x.cfg.idx
    · simp only [hid, Bool.false_eq_true, if_false] at hx' ⊢
      cases i with
      | some j => exact reset hx'
      | none =>
        simp only [World.say] at hx'
        rw [put_proc] at hx'; cases hx'
        lphases
        · exact h1
        · exact h2
        · exact h3
    · simp only [hid, if_true] at hx' ⊢
      cases i with
      | none => exact reset hx'
      | some j =>
        cases hc : w.canAttach x .idx with
        | none => simp only [hc] at hx' ⊢; exact reset hx'
        | some u =>
          simp only [hc, World.say] at hx' ⊢
          rw [put_proc] at hx'; cases hx'
          have hk := canAttach_some hc
          lphases
          · exact h1.same rfl id (List.mem_cons_of_mem _)
          · exact h2.same rfl id (List.mem_cons_of_mem _)
          · exact h3.same rfl id (List.mem_cons_of_mem _)
          · exact fun _ => ⟨hk.1, by simp, u, hk.2⟩
  case rmInfo =>
    rw [put_proc] at hx'; cases hx'
    have hh : ∀ n, n ≠ .info → Held w x n → Held ((w.setSeg .info none).put p { x.afterRemove w .info with pc := .run }) { x.afterRemove w .info with pc := .run } n := by
      intro n hn hd
      exact hd.same (by simp [World.put, World.setProc, World.setSeg, hn]) (remove_names hn) (remove_att hn)
    have h1 := hh _ (by decide) (h.cache (by rw [hpc]; rfl))
    have h2 := hh _ (by decide) (h.ht (by rw [hpc]; rfl))
    have h3 := hh _ (by decide) (h.cht (by rw [hpc]; rfl))
    have h4 := h.idx (by rw [hpc]; rfl)
    have hr := h.ready
    constructor <;> simp [PC.hasCache, PC.hasHt, PC.all, PC.hasIdx, PC.attaching, afterRemove_ready, afterRemove_cfg, hr]
    · exact h1
    · exact h2
    · exact h3
    · exact fun a b => hh _ (by decide) (h4 a b)
  case sdInfo =>
    split at hx'
    · rename_i hok
      rw [if_pos hok]
      rw [put_proc] at hx'; cases hx'
      have hh : ∀ n, n ≠ .info → Held w x n → Held ((w.setSeg .info (some .torn)).put p { x.afterCreate w .info with pc := .sdFill }) { x.afterCreate w .info with pc := .sdFill } n := by
        intro n hn hd
        exact hd.same (by simp [World.put, World.setProc, World.setSeg, hn]) create_names create_att
      have h1 := hh _ (by decide) (h.cache (by rw [hpc]; rfl))
      have h2 := hh _ (by decide) (h.ht (by rw [hpc]; rfl))
      have h3 := hh _ (by decide) (h.cht (by rw [hpc]; rfl))
      have h4 := h.idx (by rw [hpc]; rfl)
      have hr : (x.afterCreate w .info).ready = true := (afterRemove_ready _ _ _).trans h.ready
      constructor <;> simp [PC.hasCache, PC.hasHt, PC.all, PC.hasIdx, PC.attaching, afterCreate_cfg, hr]
      · exact h1
      · exact h2
      · exact h3
      · exact fun a b => hh _ (by decide) (h4 a b)
      · simp [Proc.afterCreate]
    · rename_i hok
      rw [if_neg hok]
      rw [put_proc] at hx'; cases hx'
      refine h.carry rfl rfl (fun _ => id) rfl rfl ?_ ?_ ?_ ?_ ?_ ?_ ?_ <;>
        simp [hpc, PC.hasCache, PC.hasHt, PC.all, PC.hasIdx, PC.attaching]
  case sdFill =>
    rw [put_proc] at hx'; cases hx'
    have hh : ∀ n, n ≠ .info → Held w x n → Held ((w.setSeg .info (some (.info (w.val .cache) (w.val .ht) (w.val .cht)))).put p { x with pc := .sdMeta }) { x with pc := .sdMeta } n := by
      intro n hn hd
      exact hd.same (by simp [World.put, World.setProc, World.setSeg, hn]) id id
    have h1 := hh _ (by decide) (h.cache (by rw [hpc]; rfl))
    have h2 := hh _ (by decide) (h.ht (by rw [hpc]; rfl))
    have h3 := hh _ (by decide) (h.cht (by rw [hpc]; rfl))
    have h4 := h.idx (by rw [hpc]; rfl)
    have h5 := h.info (by simp [hpc])
    have hr := h.ready
    constructor <;> simp [PC.hasCache, PC.hasHt, PC.all, PC.hasIdx, PC.attaching, hr]
    · exact h1
    · exact h2
    · exact h3
    · exact fun a b => hh _ (by decide) (h4 a b)
    · exact h5
    · rfl
  case half => rw [hx] at hx'; cases hx'; exact h
  case sdMeta =>
    split at hx'
    · rename_i hm
      rw [if_pos hm]
      rw [put_proc] at hx'; cases hx'
      have := h.ready
      lphases
    · rename_i hm
      rw [if_neg hm]
      rw [put_proc] at hx'; cases hx'
      refine h.carry rfl rfl (fun _ => id) rfl rfl ?_ ?_ ?_ ?_ ?_ ?_ ?_ <;>
        simp [hpc, PC.hasCache, PC.hasHt, PC.all, PC.hasIdx, PC.attaching]
  case sdMeta2 =>
    split at hx'
    · rename_i hm
      rw [if_pos hm]
      rw [put_proc] at hx'; cases hx'
      have := h.ready
      lphases
    rename_i hm
    rw [if_neg hm]
    split at hx'
    · rename_i hok
      rw [if_pos hok]
      simp only [World.say] at hx'
      rw [put_proc] at hx'; cases hx'
      have := h.ready
      lphases
    · rename_i hok
      rw [if_neg hok]
      rw [put_proc] at hx'; cases hx'
      have := h.ready
      lphases
  case sdMark2 =>
    simp only [World.say] at hx'
    rw [put_proc] at hx'; cases hx'
    refine h.carry rfl rfl (fun _ => id) rfl rfl ?_ ?_ ?_ ?_ ?_ ?_ ?_ <;>
      simp [hpc, PC.hasCache, PC.hasHt, PC.all, PC.hasIdx, PC.attaching]
  case sdClean => rw [gone_proc] at hx'; cases hx'
  case sdNvm =>
    split at hx'
    · rename_i hok
      rw [if_pos hok]
      rw [put_proc] at hx'; cases hx'
      refine h.carry rfl rfl (fun _ => id) rfl rfl ?_ ?_ ?_ ?_ ?_ ?_ ?_ <;>
        simp [hpc, PC.hasCache, PC.hasHt, PC.all, PC.hasIdx, PC.attaching]
    · rename_i hok
      rw [if_neg hok]
      rw [put_proc] at hx'; cases hx'
      refine h.carry rfl rfl (fun _ => id) rfl rfl ?_ ?_ ?_ ?_ ?_ ?_ ?_ <;>
        simp [hpc, PC.hasCache, PC.hasHt, PC.all, PC.hasIdx, PC.attaching]
  all_goals
    rw [put_proc] at hx'; cases hx'
    refine h.carry rfl rfl (fun _ => id) rfl rfl ?_ ?_ ?_ ?_ ?_ ?_ ?_ <;>
      cases hn : x.cfg.nvm <;> simp [hpc, PC.hasCache, PC.hasHt, PC.all, PC.hasIdx, PC.attaching]

end
end Verif.WarmRestart
