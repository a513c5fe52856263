import Verif.LoopIO.Tasks

/-!
# Collecting the tasks

C219: `get_tasks` finds exactly what can be reached, and ends.
-/
namespace Verif.LoopIO

/-- The futures which a value stands for: itself, the ones of a task group, and those of the instance of a method, also of
one which is referred to weakly and is alive. -/
inductive Holds : Value → Nat → Prop where
  | future (f) : Holds (.future f) f
  | group {fs f} : f ∈ fs → Holds (.group fs) f
  | method {v f} : Holds v f → Holds (.method v) f
  | weakMethod {v f} : Holds v f → Holds (.weakMethod (some v)) f

/-- What the loop holds: the running task, and the futures of its handles. -/
inductive Root (current : Option Nat) (handles : List (List Value)) : Nat → Prop where
  | current {f} : current = some f → Root current handles f
  | handle {h v f} : h ∈ handles → v ∈ h → Holds v f → Root current handles f

/-- What can be reached from there through the callbacks. -/
inductive Reach (callbacks : Nat → List Value) (start : Nat → Prop) : Nat → Prop where
  | start {f} : start f → Reach callbacks start f
  | next {f g v} : Reach callbacks start f → v ∈ callbacks f → Holds v g → Reach callbacks start g

theorem mem_futuresOf : ∀ (v : Value) (f : Nat), f ∈ futuresOf v ↔ Holds v f
  | .future g, f => by
    simp only [futuresOf, List.mem_singleton]
    exact ⟨fun h => h ▸ .future _, fun h => by cases h; rfl⟩
  | .group fs, f => ⟨fun h => .group h, fun h => by cases h; assumption⟩
  | .method v, f => by
    simp only [futuresOf]
    rw [mem_futuresOf v f]
    exact ⟨.method, fun h => by cases h; assumption⟩
  | .weakMethod none, f => ⟨fun h => (by cases h), fun h => (by cases h)⟩
  | .weakMethod (some v), f => by
    simp only [futuresOf]
    rw [mem_futuresOf v f]
    exact ⟨.weakMethod, fun h => by cases h; assumption⟩
  | .other, f => ⟨fun h => (by cases h), fun h => (by cases h)⟩

theorem mem_roots (current : Option Nat) (handles : List (List Value)) (f : Nat) :
    f ∈ roots current handles ↔ Root current handles f := by
  simp only [roots, List.mem_append, List.mem_flatten, List.mem_map, Option.mem_toList]
  constructor
  · rintro (h | ⟨l, ⟨v, ⟨h, hh, hv⟩, rfl⟩, hf⟩)
    · exact .current h
    · exact .handle hh hv ((mem_futuresOf v f).1 hf)
  · rintro (h | ⟨hh, hv, hf⟩)
    · exact .inl h
    · exact .inr ⟨_, ⟨_, ⟨_, hh, hv⟩, rfl⟩, (mem_futuresOf _ f).2 hf⟩

structure Sound (callbacks : Nat → List Value) (start : Nat → Prop) (s : Search) : Prop where
  reach : ∀ f, f ∈ s.pending ∨ f ∈ s.done → Reach callbacks start f
  start : ∀ f, start f → f ∈ s.pending ∨ f ∈ s.done
  next : ∀ f ∈ s.done, ∀ v ∈ callbacks f, ∀ g, Holds v g → g ∈ s.pending ∨ g ∈ s.done
  apart : ∀ f ∈ s.pending, f ∉ s.done
  once : s.done.Nodup

theorem Sound.turn {callbacks : Nat → List Value} {start : Nat → Prop} {s : Search} (h : Sound callbacks start s) {f : Nat}
    (hf : f ∈ s.pending) : Sound callbacks start (turn callbacks s f) := by
  have mem : ∀ g, g ∈ (LoopIO.turn callbacks s f).pending ↔
      (g ∈ s.pending ∧ g ≠ f) ∨ ((∃ v ∈ callbacks f, g ∈ futuresOf v) ∧ g ≠ f ∧ g ∉ s.done) := by
    intro g
    have e : g ∈ ((callbacks f).map futuresOf).flatten ↔ ∃ v ∈ callbacks f, g ∈ futuresOf v := by
      simp only [List.mem_flatten, List.mem_map]
      exact ⟨fun ⟨_, ⟨v, hv, e⟩, hg⟩ => ⟨v, hv, e ▸ hg⟩, fun ⟨v, hv, hg⟩ => ⟨_, ⟨v, hv, rfl⟩, hg⟩⟩
    simp only [LoopIO.turn, List.mem_append, List.mem_filter, e, decide_eq_true_eq, List.mem_cons, not_or]
  have mem' : ∀ g, g ∈ (LoopIO.turn callbacks s f).done ↔ g = f ∨ g ∈ s.done := by
    intro g; simp [LoopIO.turn]
  have keep : ∀ g, g ∈ s.pending ∨ g ∈ s.done →
      g ∈ (LoopIO.turn callbacks s f).pending ∨ g ∈ (LoopIO.turn callbacks s f).done := by
    intro g hg
    rw [mem, mem']
    by_cases e : g = f
    · exact .inr (.inl e)
    · rcases hg with hg | hg
      · exact .inl (.inl ⟨hg, e⟩)
      · exact .inr (.inr hg)
  constructor
  · intro g hg
    rw [mem, mem'] at hg
    rcases hg with (⟨hg, -⟩ | ⟨⟨v, hv, hg⟩, -⟩) | rfl | hg
    · exact h.reach g (.inl hg)
    · exact .next (h.reach f (.inl hf)) hv ((mem_futuresOf v g).1 hg)
    · exact h.reach _ (.inl hf)
    · exact h.reach g (.inr hg)
  · exact fun g hg => keep g (h.start g hg)
  · intro g hg v hv k hk
    rw [mem'] at hg
    rcases hg with rfl | hg
    · by_cases hd : k ∈ s.done
      · exact keep k (.inr hd)
      · by_cases e : k = g
        · exact .inr ((mem' k).2 (.inl e))
        · exact .inl ((mem k).2 (.inr ⟨⟨v, hv, (mem_futuresOf v k).2 hk⟩, e, hd⟩))
    · exact keep k (h.next g hg v hv k hk)
  · intro g hg hd
    rw [mem] at hg
    rw [mem'] at hd
    rcases hg with ⟨hg, e⟩ | ⟨-, e, hn⟩
    · exact hd.elim e (h.apart g hg)
    · exact hd.elim e hn
  · exact List.nodup_cons.2 ⟨h.apart f hf, h.once⟩

theorem Sound.turns {callbacks : Nat → List Value} {start : Nat → Prop} {s t : Search} {n : Nat}
    (ht : Turns callbacks s n t) : Sound callbacks start s → Sound callbacks start t ∧ t.done.length = s.done.length + n := by
  induction ht with
  | refl s => exact fun h => ⟨h, rfl⟩
  | turn hf _ ih =>
    intro h
    obtain ⟨a, b⟩ := ih (h.turn hf)
    refine ⟨a, ?_⟩
    rw [b]
    simp only [LoopIO.turn, List.length_cons]
    omega

theorem Sound.new (callbacks : Nat → List Value) (current : Option Nat) (handles : List (List Value)) :
    Sound callbacks (Root current handles) ⟨roots current handles, []⟩ :=
  ⟨fun f hf => hf.elim (fun h => .start ((mem_roots _ _ f).1 h)) (fun h => (by cases h)),
    fun f hf => .inl ((mem_roots _ _ f).2 hf), fun f hf => (by cases hf), fun f _ hf => (by cases hf), List.nodup_nil⟩

/-- C219. In whatever order the futures are popped: when the loop ends, the futures which it found are exactly those which
can be reached from the running task and the handles of the loop, each once. The tasks among them are returned. -/
theorem C219_found (callbacks : Nat → List Value) (current : Option Nat) (handles : List (List Value)) (n : Nat) (t : Search)
    (ht : Turns callbacks ⟨roots current handles, []⟩ n t) (he : t.pending = []) :
    (∀ f, f ∈ t.done ↔ Reach callbacks (Root current handles) f) ∧ t.done.Nodup := by
  have h := (Sound.turns ht (Sound.new callbacks current handles)).1
  refine ⟨fun f => ⟨fun hf => h.reach f (.inr hf), fun hf => ?_⟩, h.once⟩
  induction hf with
  | start hs => exact (h.start _ hs).resolve_left (fun h' => by rw [he] at h'; cases h')
  | next _ hv hg ih => exact (h.next _ ih _ hv _ hg).resolve_left (fun h' => by rw [he] at h'; cases h')

theorem nodup_below (l : List Nat) (k : Nat) (hn : l.Nodup) (hk : ∀ f ∈ l, f < k) : l.length ≤ k := by
  induction k generalizing l with
  | zero =>
    cases l with
    | nil => exact Nat.le_refl _
    | cons a l => exact absurd (hk a List.mem_cons_self) (Nat.not_lt_zero _)
  | succ k ih =>
    have h1 := ih (l.filter (· ≠ k)) (hn.filter _) (by
      intro f hf
      have := List.mem_filter.1 hf
      have hlt := hk f this.1
      have hne : f ≠ k := by simpa using this.2
      omega)
    have h2 : l.length ≤ (l.filter (· ≠ k)).length + 1 := by
      have h3 : (l.filter (· ≠ k)).length + l.count k = l.length := by
        clear ih h1 hk hn
        induction l with
        | nil => rfl
        | cons a l ih =>
          by_cases ha : a = k
          · subst ha; simp at ih ⊢; omega
          · simp [ha] at ih ⊢; omega
      have h4 : l.count k ≤ 1 := List.nodup_iff_count.1 hn k
      omega
    omega

/-- C219. The loop ends: there are never more turns than futures; and while there is something to check it goes on. -/
theorem C219_ends (callbacks : Nat → List Value) (current : Option Nat) (handles : List (List Value)) (k : Nat)
    (hk : ∀ f, Reach callbacks (Root current handles) f → f < k) (n : Nat) (t : Search)
    (ht : Turns callbacks ⟨roots current handles, []⟩ n t) :
    n ≤ k ∧ (t.pending = [] ∨ ∃ t', Turns callbacks ⟨roots current handles, []⟩ (n + 1) t') := by
  obtain ⟨h, hl⟩ := Sound.turns ht (Sound.new callbacks current handles)
  constructor
  · have := nodup_below t.done k h.once (fun f hf => hk f (h.reach f (.inr hf)))
    simp only [List.length_nil, Nat.zero_add] at hl
    omega
  · have app : ∀ {s : Search} {n : Nat} {t : Search}, Turns callbacks s n t → ∀ f ∈ t.pending,
        ∃ t', Turns callbacks s (n + 1) t' := by
      intro s n t ht
      induction ht with
      | refl s => exact fun f hf => ⟨_, .turn hf (.refl _)⟩
      | turn hf _ ih =>
        intro g hg
        obtain ⟨t', h'⟩ := ih g hg
        exact ⟨t', .turn hf h'⟩
    rcases hp : t.pending with _ | ⟨f, l⟩
    · exact .inl rfl
    · exact .inr (app ht f (by rw [hp]; exact List.mem_cons_self))

/-- A future whose callback is a method of a task, and a cycle. -/
example : ∃ t, Turns (fun f => if f = 0 then [.method (.future 1), .other] else if f = 1 then [.group [2, 0]] else [])
      ⟨roots none [[.method (.future 0)], [.other, .weakMethod none]], []⟩ 3 t ∧ t.pending = [] ∧ t.done = [2, 1, 0] := by
  refine ⟨_, .turn (f := 0) (by decide) (.turn (f := 1) (by decide) (.turn (f := 2) (by decide) (.refl _))), by decide, by decide⟩

end Verif.LoopIO
