import Verif.Props.WinAG
import Verif.Props.WinAI

/-!
# C117 for `weakly_canonical`, `proximate` and `relative`
-/

namespace Asap
open Spec

section
variable {k : SysClock} {p q : Path} {ec : EcArg}

theorem wsound_prefix : ∀ (es : List Path) (r : Path) (m : Code), (∀ e ∈ es, Sturdy e) → Sturdy r →
    Sound (WinSane k) (fun x => Sturdy x.1 ∧ ∀ e ∈ x.2.1, Sturdy e) (Win.existingPrefix es r m)
  | [], _, _, _, hr => .ret _ ⟨hr, by simp⟩
  | e :: es, r, m, he, hr => by
    simp only [Win.existingPrefix, Prog.bind_eq]
    refine (Sound.ofRes (sturdy_append hr (he e (by simp)))).bind fun t ht => wsound_stat.bind fun st _ => ?_
    split
    · exact wsound_prefix es t _ (fun a ha => he a (by simp [ha])) ht
    · exact .ret _ ⟨hr, he⟩

theorem sturdy_appendAll : ∀ (es : List Path) {r : Path}, (∀ e ∈ es, Sturdy e) → Sturdy r → ∃ q, Win.appendAll r es = .ok q ∧ Sturdy q
  | [], _, _, hr => ⟨_, rfl, hr⟩
  | e :: es, r, he, hr => by
    obtain ⟨t, h, ht⟩ := sturdy_append hr (he e (by simp))
    obtain ⟨q, h1, h2⟩ := sturdy_appendAll es (fun a ha => he a (by simp [ha])) ht
    exact ⟨q, by rw [Win.appendAll, h]; exact h1, h2⟩

theorem wsound_weakly {n : Nat} (hp : Sturdy p) (hn : n ≤ 2147483688) :
    Sound (WinSane k) (fun r => Sturdy r.1) (Win.weaklyCanonical false n p ec) := by
  simp only [Win.weaklyCanonical, Prog.bind_eq]
  split
  · exact wsound_canonical (firm_mkPath _) hn
  refine wsound_stat.bind fun st _ => ?_
  split
  · exact .report .dflt
  split
  · exact wsound_canonical hp hn
  refine (wsound_prefix _ _ _ (fun e he => Firm.element hp he) .dflt).bind fun x hx => Sound.bind (Q := fun y => Sturdy y.1) ?_ fun y hy => ?_
  · split
    · exact (wsound_canonical hx.1 hn).bind fun z hz => .ret _ hz
    · exact .ret _ hx.1
  · split
    · exact .ret _ (show Firm true (mkPath .windows []) from firm_mkPath _)
    · refine (Sound.ofRes (sturdy_appendAll _ hx.2 hy)).bind fun r hr => ?_
      refine (Sound.ofRes (Firm.lexicallyNormal hr false)).bind fun r hr => ?_
      exact .ret _ (show Firm true (returned .windows false r) from Firm.returned hr _)

theorem wsound_via {n : Nat} {f : Path → Path → Res Path} (hf : ∀ x y, Sturdy x → Sturdy y → ∃ r, f x y = .ok r ∧ Sturdy r) (hp : Sturdy p) (hq : Sturdy q)
    (hn : n ≤ 2147483688) (c : Code) : Sound (WinSane k) (fun r => Sturdy r.1) (Win.viaCanonicalEc false n f p q c) ∧
      Sound (WinSane k) (fun r => Sturdy r.1) (Win.viaCanonicalThrow false n f p q) := by
  constructor
  · simp only [Win.viaCanonicalEc, Prog.bind_eq]
    refine (wsound_weakly hp hn).bind fun x hx => ?_
    split
    · exact .ret _ .dflt
    refine (wsound_weakly hq hn).bind fun y hy => ?_
    split
    · exact .ret _ .dflt
    · exact (Sound.ofRes (hf _ _ hx hy)).bind fun r hr => .ret _ hr
  · simp only [Win.viaCanonicalThrow, Prog.bind_eq]
    refine (wsound_weakly hp hn).bind fun x hx => (wsound_weakly hq hn).bind fun y hy => ?_
    exact (Sound.ofRes (hf _ _ hx hy)).bind fun r hr => .ret _ hr

theorem wsound_proximate {n : Nat} (hp : Sturdy p) (hq : Sturdy q) (hn : n ≤ 2147483688) :
    Sound (WinSane k) (fun r => Sturdy r.1) (Win.proximate false n p q ec) := by
  cases ec with
  | null => exact (wsound_via (fun _ _ hx hy => Firm.lexicallyProximate hx hy) hp hq hn none).2
  | ref c => exact (wsound_via (fun _ _ hx hy => Firm.lexicallyProximate hx hy) hp hq hn c).1

theorem wsound_relative {n : Nat} (hp : Sturdy p) (hq : Sturdy q) (hn : n ≤ 2147483688) :
    Sound (WinSane k) (fun r => Sturdy r.1) (Win.relative false n p q ec) := by
  cases ec with
  | null => exact (wsound_via (fun _ _ hx hy => Firm.lexicallyRelative hx hy) hp hq hn none).2
  | ref c => exact (wsound_via (fun _ _ hx hy => Firm.lexicallyRelative hx hy) hp hq hn c).1

end

/-- **C117**, partial, for the functions that resolve a path, compiled without copy elision, within 2147483688 rounds of `canonical`: they run into no
fault, and what they return can be given to further operations. Missing: more rounds (the count of links, which is not stopped at zero when errors are
not thrown, then overflows), and copy elision. -/
theorem c117_resolve_partial (k : SysClock) (n : Nat) (f : Resolve) (hp : Sturdy f.arg) (hb : ∀ b, f.base? = some b → Sturdy b) (hn : n ≤ 2147483688)
    (ec : EcArg) {t : List Event} {o : Except Stop (Path × EcArg)} (hx : Exec (f.run false n ec) t o) (hs : ∀ ev ∈ t, WinSane k ev) :
    (∀ x, o ≠ .error (.fault x)) ∧ ∀ r, o = .ok r → Sturdy r.1 := by
  have hf : Sound (WinSane k) (fun r => Sturdy r.1) (f.run false n ec) := by
    cases f with
    | canonical p => exact wsound_canonical hp hn
    | weaklyCanonical p => exact wsound_weakly hp hn
    | proximate p b => exact wsound_proximate hp (hb b rfl) hn
    | relative p b => exact wsound_relative hp (hb b rfl) hn
    | proximateCwd p => exact wsound_currentPath.bind fun x hx => wsound_proximate hp hx hn
    | relativeCwd p => exact wsound_currentPath.bind fun x hx => wsound_relative hp hx hn
  exact hf.exec hx hs

/-- Not vacuous: the paths of any program are covered. -/
example (ops : List Op) (σ : Store) (h : execAllOn .windows false ops (fun _ => .default) = .ok σ) (v w : Nat) :
    Sturdy (Resolve.relative (σ v) (σ w)).arg ∧ ∀ b, (Resolve.relative (σ v) (σ w)).base? = some b → Sturdy b :=
  ⟨sturdy_reached h v, fun _ hb => by cases hb; exact sturdy_reached h w⟩

end Asap
