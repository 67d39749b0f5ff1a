/-
C66: `Sampler.sample` with a fixed seed. C79: calls without a seed discard the state of the generator.
-/
import Verif.Model.Seeds
import Verif.Model.Local
import Verif.Lemmas.Py
import Mathlib.Data.Fintype.Pigeonhole
import Mathlib.Data.Fintype.Card

namespace Verif

variable {G E α : Type} (R : Rng G E) (body : G → Py α × G)

/-- The seed drawn from a generator state. -/
def nextSeed (g : G) : ℕ := (R.randint 100000 g).1

/-- The seeds of a batch that starts with generator state `g`: each is drawn from the state the previous
sample left behind. -/
def batchSeed (g : G) : ℕ → ℕ
  | 0 => nextSeed R g
  | k + 1 => nextSeed R (body (R.seed (batchSeed g k))).2

theorem nextSeed_lt (g : G) : nextSeed R g < 100000 := R.randint_lt 100000 g (by norm_num)

theorem batchSeed_lt (g : G) : ∀ k, batchSeed R body g k < 100000
  | 0 => nextSeed_lt R g
  | _ + 1 => nextSeed_lt R _

theorem batchSeed_succ (g : G) : ∀ k,
    batchSeed R body g (k + 1) = batchSeed R body (body (R.seed (nextSeed R g))).2 k
  | 0 => rfl
  | k + 1 => by rw [batchSeed, batchSeed_succ g k, batchSeed]

/-- A batch in terms of its seeds. -/
theorem sampleComprehension_eq : ∀ (k : ℕ) (w : World G E),
    (sampleComprehension R body k w).1 =
      (List.range k).mapM fun i => (body (R.seed (batchSeed R body w.gen i))).1
  | 0, w => rfl
  | k + 1, w => by
    rw [List.range_succ_eq_map, List.mapM_cons, sampleComprehension]
    simp only [sampleOnceSeeded, Rng.reseed]
    cases h : (body (R.seed (R.randint 100000 w.gen).1)).1 with
    | error e =>
      simp only [batchSeed, nextSeed, h]; rfl
    | ok a =>
      simp only [batchSeed, nextSeed, h]
      have ih := sampleComprehension_eq k
        { w with gen := (body (R.seed (R.randint 100000 w.gen).1)).2 }
      rw [List.mapM_map]
      have e : ((fun i => (body (R.seed (batchSeed R body w.gen i))).1) ∘ Nat.succ) =
          fun i => (body (R.seed (batchSeed R body (body (R.seed (nextSeed R w.gen))).2 i))).1 := by
        funext i
        simp only [Function.comp_apply, Nat.succ_eq_add_one, batchSeed_succ]
      rw [e]
      unfold nextSeed
      simp only at ih
      rw [← ih]
      rcases hc : sampleComprehension R body k
        { w with gen := (body (R.seed (R.randint 100000 w.gen).1)).2 } with ⟨r, w'⟩
      cases r <;> rfl

theorem mapM_range_ok {f : ℕ → Py α} {k : ℕ} {l : List α} (h : (List.range k).mapM f = .ok l) :
    l.length = k ∧ ∀ i (hi : i < l.length), f i = .ok l[i] := by
  have h' := mapM_eq_ok_iff.mp h
  have hl : l.length = k := by simpa using h'.length_eq.symm
  refine ⟨hl, fun i hi => ?_⟩
  have := List.forall₂_iff_get.mp h'
  simpa using this.2 i (by simp; omega) hi

theorem samplerSample_eq (s k : ℕ) (w : World G E) :
    (samplerSample R body (some s) k w).1 =
      (List.range k).mapM fun i => (body (R.seed (batchSeed R body (R.seed s) i))).1 := by
  rw [samplerSample, sampleComprehension_eq]
  rfl

/-- **C66 (reproducible).** With a fixed `random_state`, a batch does not depend on the state of the
generator or on anything that happened before the call. -/
theorem C66_reproducible (s k : ℕ) (w w' : World G E) :
    (samplerSample R body (some s) k w).1 = (samplerSample R body (some s) k w').1 := by
  rw [samplerSample_eq, samplerSample_eq]

/-- **C66 (prefix).** The first `k` samples of a longer batch are the batch of size `k`. -/
theorem C66_prefix (s k m : ℕ) (w w' : World G E) (l : List α)
    (h : (samplerSample R body (some s) (k + m) w).1 = .ok l) :
    (samplerSample R body (some s) k w').1 = .ok (l.take k) := by
  rw [samplerSample_eq] at h ⊢
  obtain ⟨hl, hf⟩ := mapM_range_ok h
  rw [mapM_eq_ok_iff, List.forall₂_iff_get]
  refine ⟨by simp [hl], fun i h1 h2 => ?_⟩
  have := hf i (by simp at h2; omega)
  simpa using this

/-- **C66 (failures persist).** If a batch raises, every longer batch with the same `random_state`
raises the same exception. -/
theorem C66_error_persists (s k m : ℕ) (w w' : World G E) (e : PyErr)
    (h : (samplerSample R body (some s) k w).1 = .error e) :
    (samplerSample R body (some s) (k + m) w').1 = .error e := by
  rw [samplerSample_eq] at h ⊢
  rw [List.range_add, List.mapM_append, h]
  rfl

/-- The seeds of a batch repeat: the state after a sample is determined by the sample's seed, and there
are only 100000 seeds. -/
theorem batchSeed_periodic (g : G) : ∃ μ lam : ℕ, 1 ≤ lam ∧ μ + lam ≤ 100000 ∧
    ∀ i, μ ≤ i → batchSeed R body g (i + lam) = batchSeed R body g i := by
  obtain ⟨a, b, hne, hab⟩ := Fintype.exists_ne_map_eq_of_card_lt
    (fun i : Fin 100001 => (⟨batchSeed R body g i, batchSeed_lt R body g i⟩ : Fin 100000)) (by simp)
  have hab' : batchSeed R body g a = batchSeed R body g b := congrArg Fin.val hab
  have main : ∀ a b : ℕ, a < b → b ≤ 100000 → batchSeed R body g a = batchSeed R body g b →
      ∃ μ lam : ℕ, 1 ≤ lam ∧ μ + lam ≤ 100000 ∧
        ∀ i, μ ≤ i → batchSeed R body g (i + lam) = batchSeed R body g i := by
    intro a b hlt hb he
    refine ⟨a, b - a, by omega, by omega, fun i hi => ?_⟩
    induction i, hi using Nat.le_induction with
    | base => rw [show a + (b - a) = b by omega]; exact he.symm
    | succ i hi ih =>
      rw [show i + 1 + (b - a) = (i + (b - a)) + 1 by omega, batchSeed, ih, batchSeed]
  rcases lt_or_gt_of_ne (fun h => hne (Fin.ext h) : (a : ℕ) ≠ b) with h | h
  · exact main a b h (by omega) hab'
  · exact main b a h (by omega) hab'.symm

/-- **C66 (cycle).** For every sampler and every seed there are a pre-period `μ` and a period `lam`,
together at most 100000, such that in every batch, however long, the samples after the first `μ` repeat
with period `lam`. -/
theorem C66_cycles (s : ℕ) : ∃ μ lam : ℕ, 1 ≤ lam ∧ μ + lam ≤ 100000 ∧
    ∀ (k : ℕ) (w : World G E) (l : List α), (samplerSample R body (some s) k w).1 = .ok l →
      ∀ i (_ : μ ≤ i) (h2 : i + lam < l.length), l[i + lam] = l[i] := by
  obtain ⟨μ, lam, h1, h2, h3⟩ := batchSeed_periodic R body (R.seed s)
  refine ⟨μ, lam, h1, h2, fun k w l h i hi hl => ?_⟩
  rw [samplerSample_eq] at h
  obtain ⟨-, hf⟩ := mapM_range_ok h
  have a := hf (i + lam) hl
  have b := hf i (by omega)
  rw [h3 i hi, b] at a
  exact (Except.ok.inj a).symm

/-- **C66 (few distinct samples).** However many samples are requested, a seeded batch contains at most
100000 different ones. -/
theorem C66_at_most_100000_distinct [DecidableEq α] (s k : ℕ) (w : World G E) (l : List α)
    (h : (samplerSample R body (some s) k w).1 = .ok l) : l.toFinset.card ≤ 100000 := by
  rw [samplerSample_eq] at h
  obtain ⟨-, hf⟩ := mapM_range_ok h
  have sub : l.toFinset.image (fun a => (some (Except.ok a) : Option (Py α))) ⊆
      (Finset.range 100000).image fun sd => some (body (R.seed sd)).1 := by
    intro x hx
    simp only [Finset.mem_image, List.mem_toFinset, Finset.mem_range] at hx ⊢
    obtain ⟨a, ha, rfl⟩ := hx
    obtain ⟨i, hi, rfl⟩ := List.mem_iff_getElem.mp ha
    exact ⟨_, batchSeed_lt R body (R.seed s) i, by rw [hf i hi]⟩
  have c := Finset.card_le_card sub
  rw [Finset.card_image_of_injective _ (fun a b h => by cases h; rfl)] at c
  exact c.trans (Finset.card_image_le.trans (by simp))

/-- **C66 (each sample is one of 100000).** Every sample of a seeded batch is what `sample_once` returns
for some seed below 100000. -/
theorem C66_samples_from_seeds (s k : ℕ) (w : World G E) (l : List α)
    (h : (samplerSample R body (some s) k w).1 = .ok l) (a : α) (ha : a ∈ l) :
    ∃ sd < 100000, ∀ w' : World G E, (sampleOnceSeeded R body (some sd) w').1 = .ok a := by
  rw [samplerSample_eq] at h
  obtain ⟨-, hf⟩ := mapM_range_ok h
  obtain ⟨i, hi, rfl⟩ := List.mem_iff_getElem.mp ha
  exact ⟨_, batchSeed_lt R body (R.seed s) i, fun w' => hf i hi⟩

/-- **C79 (an unseeded call ignores earlier seeding).** `sample_once()` and `sample(k)` without a seed
overwrite the generator from the operating system: what they return, and the state they leave, is the
same whatever the generator's state was. Calling `numpy.random.seed` beforehand therefore does not make
them reproducible. -/
theorem C79_unseeded_ignores_generator (w : World G E) (g : G) (k : ℕ) :
    sampleOnceSeeded R body none { w with gen := g } = sampleOnceSeeded R body none w ∧
      samplerSample R body none k { w with gen := g } = samplerSample R body none k w :=
  ⟨rfl, rfl⟩

/-- **C79 (tails depend on entropy only).** In a fitting run the `i`-th tail is computed from its own item
of entropy: the number of items used before it is all that matters, not the generator's state at any time,
nor what the code between the calls does to the generator. -/
theorem C79_tails_follow_entropy (between : ℕ → World G E → G) (used : ℕ → ℕ) (n : ℕ)
    (w : World G E) :
    unseededCalls R body between used n 0 w = (List.range n).map fun i =>
      (body (R.fresh (w.entropy (i + ((List.range i).map used).sum)))).1 := by
  have gen : ∀ (n k : ℕ) (w : World G E), unseededCalls R body between used n k w =
      (List.range n).map fun i =>
        (body (R.fresh (w.entropy (i + ((List.range i).map fun j => used (k + j)).sum)))).1 := by
    intro n
    induction n with
    | zero => intros; rfl
    | succ n ih =>
      intro k w
      rw [unseededCalls, ih, List.range_succ_eq_map, List.map_cons, List.map_map]
      congr 1
      refine List.map_congr_left fun i _ => ?_
      simp only [Function.comp_apply, sampleOnceSeeded, Rng.reseed, List.range_succ_eq_map,
        List.map_cons, List.map_map, List.sum_cons]
      congr 4
      have : ((fun j => used (k + j)) ∘ Nat.succ) = fun j => used (k + 1 + j) := by
        funext j; simp only [Function.comp_apply]; congr 1; omega
      simp only [Function.comp_def] at this ⊢
      simp only [Nat.add_zero, Nat.succ_eq_add_one] at this ⊢
      rw [this]
      omega
  simpa using gen n 0 w

theorem RandR.run_bind {β : Type} (f : α → RandR β) : ∀ (m : RandR α) (g : G),
    (m.bind f).run R g = match m.run R g with
      | (.ok a, g') => (f a).run R g'
      | (.error e, g') => (.error e, g')
  | .done (.ok _), _ => rfl
  | .done (.error _), _ => rfl
  | .choice _ k, g => by
    simp only [RandR.bind, RandR.run]
    exact RandR.run_bind f (k _) _
  | .unif k, g => by
    simp only [RandR.bind, RandR.run]
    exact RandR.run_bind f (k _) _

/-- **C66 (draws follow each other).** The numbers that one call of `numpy.random.uniform(0, 1, n)` returns are the
answers of the generator in its state before the call, in the state after one draw, after two draws, and so on;
the call leaves the state after `n` draws. -/
theorem C66_successive_draws (n : ℕ) (g : G) :
    (drawUniforms n).run R g =
      (.ok ((List.range n).map fun i => (R.unif ((fun h => (R.unif h).2)^[i] g)).1),
        (fun h => (R.unif h).2)^[n] g) := by
  induction n generalizing g with
  | zero => rfl
  | succ n ih =>
    rw [drawUniforms]
    show (RandR.bind (RandR.unif fun u => pure u) fun u => RandR.bind (drawUniforms n) fun us => pure (u :: us)).run R g = _
    rw [RandR.run_bind]
    show (RandR.bind (drawUniforms n) fun us => pure ((R.unif g).1 :: us)).run R (R.unif g).2 = _
    rw [RandR.run_bind, ih, List.range_succ_eq_map, List.map_cons, List.map_map]
    rfl

/-- **C66 (draws follow each other, discrete).** The same for `numpy.random.choice(items, size=n, p=p)` with a probability
vector: the entries are those at the positions the generator picks in successive states. -/
theorem C66_successive_choices (items : List ℕ) (p : List ℝ) (hne : p ≠ []) (h0 : ∀ q ∈ p, 0 ≤ q) (h1 : p.sum = 1)
    (n : ℕ) (g : G) :
    (drawChoices items p n).run R g =
      (.ok ((List.range n).map fun i => items.getD (R.pick p ((fun h => (R.pick p h).2)^[i] g)).1 0),
        (fun h => (R.pick p h).2)^[n] g) := by
  induction n generalizing g with
  | zero => rfl
  | succ n ih =>
    rw [drawChoices]
    show (RandR.bind (npChoiceR p) fun u => RandR.bind (drawChoices items p n) fun us =>
      pure (items.getD u 0 :: us)).run R g = _
    rw [RandR.run_bind, npChoiceR, if_pos ⟨hne, h0, h1⟩]
    show (RandR.bind (drawChoices items p n) fun us =>
      pure (items.getD (R.pick p g).1 0 :: us)).run R (R.pick p g).2 = _
    rw [RandR.run_bind, ih, List.range_succ_eq_map, List.map_cons, List.map_map]
    rfl

/-- Non-vacuity: three draws from a counter are three different numbers. -/
example :
    ((drawUniforms 3).run (E := ℕ)
      { seed := id, fresh := id, randint := fun n g => (g % n, g + 1),
        randint_lt := fun n g h => Nat.mod_lt _ h, pick := fun p g => (g % p.length, g + 1),
        unif := fun g => ((g : ℝ), g + 1) } (5 : ℕ)).1 = .ok [5, 6, 7] := by
  rw [C66_successive_draws]
  norm_num [List.range_succ]

/-- Non-vacuity: a small generator (a counter), with the subset sampler of `BoleyAreaSampler` as body. -/
noncomputable example (order : List ℕ) : ∃ R : Rng ℕ ℕ, ∃ body : ℕ → Py (List ℕ) × ℕ,
    body = (npPermutation order.length order).run R ∧
    (samplerSample R body (some 3) 2 ⟨7, id⟩).1 = (samplerSample R body (some 3) 2 ⟨8, id⟩).1 :=
  ⟨{ seed := id, fresh := id, randint := fun n g => (g % n, g + 1),
     randint_lt := fun n g h => Nat.mod_lt _ h, pick := fun p g => (g % p.length, g + 1),
     unif := fun g => (0, g + 1) }, _, rfl, C66_reproducible _ _ _ _ _ _⟩

end Verif
