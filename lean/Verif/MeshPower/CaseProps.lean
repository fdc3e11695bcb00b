import Verif.MeshPower.ReconProps
import Verif.Recon.SymCaseProps

/-! # C143: a mesh of 2 x 2 x 1 cells -/
set_option linter.unusedSimpArgs false

namespace NBK.MeshPower
open NBK.Pipe (World Machine Content Fld Powers SameLayout BinsOk ok_bind error_bind Shift)

/-- Whether `k x` is odd. -/
def odd (m x : Nat) : Bool := (m / 2 % 2 * (x / 2 % 2) + m % 2 * (x % 2)) % 2 = 1

/-- The mesh of `Recon.fft4` with nearest grid points for catalogs. -/
def world : World where
  ncells := 4
  nmodes := 4
  dep p x := if p % 4 = x % 4 then 1 else 0
  tw m x := ⟨if odd m x then -1 else 1, 0⟩
  back m x := ⟨if odd m x then -1 else 1, 0⟩
  zero := 0
  mode m := ⟨(m : ℚ) ^ 2, m, 0, false, 1, ⟨0, 0⟩⟩
  sep x := ⟨(x : ℚ) ^ 2, x, 0, false, 1, ⟨0, 0⟩⟩
  pi := 3
  root q := q

theorem odd_mod (m x : Nat) : odd (m % 4) (x % 4) = odd m x := by
  unfold odd
  have h1 : m % 4 / 2 % 2 = m / 2 % 2 := by omega
  have h2 : x % 4 / 2 % 2 = x / 2 % 2 := by omega
  have h3 : m % 4 % 2 = m % 2 := by omega
  have h4 : x % 4 % 2 = x % 2 := by omega
  rw [h1, h2, h3, h4]

/-- The shift by one cell along the first axis. -/
def two : Shift world where
  pos p := p + 2
  cell x := (x + 2) % 4
  phase m := ⟨if odd m 2 then -1 else 1, 0⟩
  perm := by decide +kernel
  dep := by
    intro p x
    show (if (p + 2) % 4 = (x + 2) % 4 % 4 then (1 : ℚ) else 0) = if p % 4 = x % 4 then 1 else 0
    have : ((p + 2) % 4 = (x + 2) % 4 % 4) ↔ p % 4 = x % 4 := by omega
    simp only [this]
  tw := by
    intro m x
    have key : ∀ m < 4, ∀ x < 4, (⟨if odd m ((x + 2) % 4) then -1 else 1, 0⟩ : Project.Cx) =
        Pipe.mul ⟨if odd m 2 then -1 else 1, 0⟩ ⟨if odd m x then -1 else 1, 0⟩ := by decide +kernel
    have := key (m % 4) (Nat.mod_lt _ (by norm_num)) (x % 4) (Nat.mod_lt _ (by norm_num))
    have e1 : odd (m % 4) ((x % 4 + 2) % 4) = odd m ((x + 2) % 4) := by
      rw [odd_mod, ← odd_mod m (x % 4 + 2), ← odd_mod m ((x + 2) % 4)]
      congr 1
      omega
    have e2 : odd (m % 4) 2 = odd m 2 := odd_mod m 2
    rw [e1, e2, odd_mod] at this
    exact this
  unit := by
    intro m
    show Pipe.norm2 ⟨if odd m 2 then -1 else 1, 0⟩ = 1
    split <;> simp [Pipe.norm2]

def row (p : Nat) (wt : ℚ) : Paint.Row := ⟨p, wt, 1, true⟩

def reconSrc : ReconSrc := ⟨4, 4, Recon.share4, Recon.fft4, Recon.attrs4, fun _ => 1, .LGS, Recon.gal, Recon.rnd⟩

/-- Two species on two ranks. -/
def kinds : List SpeciesMesh.Species := [⟨"dm", [[row 0 1], [row 1 2, ⟨3, 9, 1, false⟩]]⟩, ⟨"gas", [[], [row 2 5]]⟩]

/-- The sources: a reconstruction, the two species, and one catalog. -/
def sources : Nat → Source
  | 0 => .recon reconSrc
  | 1 => .species (fun _ => 1) none none kinds
  | _ => .mesh (.particles (fun _ => 1) none none [[row 0 1, row 3 1]])

/-- All of them moved by a cell, the catalogs of the reconstruction on one rank. -/
def moved : Nat → Source
  | 0 => .recon { reconSrc with data := [Recon.gal.flatten.map Recon.shiftX.pos], ran := [Recon.rnd.flatten.map Recon.shiftX.pos] }
  | 1 => .species (fun _ => 1) none none (kinds.map (moveSp two))
  | _ => .mesh (.particles (fun _ => 1) none none [[row 2 1, row 5 1]])

/-- One catalog in place of the species. -/
def merged : Nat → Source
  | 0 => .recon { reconSrc with data := [Recon.gal.flatten, Recon.gal.flatten] }
  | 1 => .mesh (.particles (fun _ => 1) none none [[row 2 5, row 0 1, ⟨3, 9, 1, false⟩, row 1 2]])
  | _ => .mesh (.particles (fun _ => 1) none none [[row 3 1], [row 0 1]])

def serial : Machine := ⟨fun _ => .cells none none fun _ => 0, fun _ => [0], 1, [[[0, 1, 2, 3]]], [[[0, 1, 2, 3]]]⟩
def parallel : Machine := ⟨fun _ => .cells none none fun _ => 0, fun _ => [0, 1], 2, [[[2], []], [[3, 1, 0]]], [[[3, 1]], [[0], [2]]]⟩

theorem layout : SameLayout serial parallel := ⟨by decide, by decide⟩

theorem fits (mc : Machine) (hm : 0 < mc.maxc) (src : Nat → Source) (h0 : ∃ r, src 0 = .recon r)
    (h1 : (∃ c n q sp, src 1 = .species c n q sp ∧ ∀ x ∈ sp, x.ranks.length ≤ 2) ∨ ∃ c n q rows, src 1 = .mesh (.particles c n q rows) ∧ rows.length ≤ 2)
    (h2 : ∀ s, ∃ c n q rows, src (s + 2) = .mesh (.particles c n q rows) ∧ rows.length ≤ 2) : Fits mc src := by
  refine ⟨hm, fun s => ?_⟩
  have key : (∃ r, src s = .recon r) ∨ (∃ c n q sp, src s = .species c n q sp ∧ ∀ x ∈ sp, x.ranks.length ≤ 2) ∨
      ∃ c n q rows, src s = .mesh (.particles c n q rows) ∧ rows.length ≤ 2 := by
    match s with
    | 0 => exact .inl h0
    | 1 => exact .inr h1
    | s + 2 => exact .inr (.inr (h2 s))
  rcases key with ⟨r, e⟩ | ⟨c, n, q, sp, e, h⟩ | ⟨c, n, q, rows, e, h⟩
  · rw [e]
    constructor <;> (intro _ _ _ _ h; cases h)
  · rw [e]
    constructor
    · intro _ _ _ _ h; cases h
    · intro _ _ _ _ h' x hx
      cases h'
      have := h x hx
      omega
  · rw [e]
    constructor
    · intro _ _ _ _ h'
      cases h'
      omega
    · intro _ _ _ _ h; cases h

theorem fits_sources (mc : Machine) (hm : 0 < mc.maxc) : Fits mc sources :=
  fits mc hm sources ⟨_, rfl⟩ (.inl ⟨_, _, _, kinds, rfl, by decide⟩) fun _ => ⟨_, _, _, [[row 0 1, row 3 1]], rfl, by decide⟩

theorem fits_moved (mc : Machine) (hm : 0 < mc.maxc) : Fits mc moved :=
  fits mc hm moved ⟨_, rfl⟩ (.inl ⟨_, _, _, kinds.map (moveSp two), rfl, by decide⟩) fun _ => ⟨_, _, _, [[row 2 1, row 5 1]], rfl, by decide⟩

theorem fits_merged (mc : Machine) (hm : 0 < mc.maxc) : Fits mc merged :=
  fits mc hm merged ⟨_, rfl⟩ (.inr ⟨_, _, _, [[row 2 5, row 0 1, ⟨3, 9, 1, false⟩, row 1 2]], rfl, by decide⟩)
    fun _ => ⟨_, _, _, [[row 3 1], [row 0 1]], rfl, by decide⟩

theorem gal_data : reconSrc.data.flatten ≠ [] ∧ reconSrc.ran.flatten ≠ [] := ⟨by decide +kernel, by decide +kernel⟩

/-- The hypotheses of `call_moved` hold for cross statistics of a reconstruction, species and a catalog. -/
theorem case_moved (k : FftObj.Kind) (first : FftObj.Src) (sec : Option FftObj.Src) (g : FftObj.Args) (d : ℚ) (hd : 0 < d) (hg : g.dx = some d) :
    call world serial sources k first sec g = call world parallel moved k first sec g := by
  refine call_moved world (by decide) two serial parallel layout sources moved ?_ (fits_sources _ (by decide)) (fits_moved _ (by decide)) k first sec g
    (Pipe.bins_given world serial k first sec g d hd hg)
  intro s
  match s with
  | 0 =>
    refine ⟨Recon.shiftX, _, _, rfl, rfl, gal_data.1, gal_data.2, rfl, fun _ => rfl, fun _ => trivial, ?_, ?_, ?_⟩
    · show ∀ c : Fin 4, (Recon.flipHi c).val = (c.val + 2) % 4
      decide
    · rw [List.flatten_singleton]; exact .refl _
    · rw [List.flatten_singleton]; exact .refl _
  | 1 => exact ⟨rfl, by decide +kernel, by decide +kernel⟩
  | s + 2 => rfl

/-- The hypotheses of `call_sources_partial`. -/
theorem case_merged (k : FftObj.Kind) (first : FftObj.Src) (sec : Option FftObj.Src) (g : FftObj.Args) (d : ℚ) (hd : 0 < d) (hg : g.dx = some d) :
    call world serial sources k first sec g = call world parallel merged k first sec g := by
  refine call_sources_partial world (by decide) serial parallel layout sources merged ?_ (fits_sources _ (by decide)) (fits_merged _ (by decide)) k first sec g
    (Pipe.bins_given world serial k first sec g d hd hg)
  intro s
  match s with
  | 0 =>
    refine ⟨[Recon.gal.flatten, Recon.gal.flatten], Recon.rnd, rfl, by decide, gal_data.1, gal_data.2, ⟨2, by norm_num, ?_⟩, 1, by norm_num, ?_⟩
    · exact .refl _
    · show Recon.rnd.flatten.Perm (List.replicate 1 Recon.rnd.flatten).flatten
      rw [show List.replicate 1 Recon.rnd.flatten = [Recon.rnd.flatten] from rfl, List.flatten_singleton]
  | 1 => exact ⟨rfl, rfl, rfl, by decide +kernel, by decide +kernel, by decide +kernel⟩
  | s + 2 => exact ⟨rfl, rfl, rfl, by decide +kernel⟩

/-- The power of a mode of the reconstruction and its cross power with the species. -/
example : (compute world serial 1 (.recon reconSrc)).toOption.map (fun f => f.coef 1) = some ⟨4 / 3, 0⟩ := by decide +kernel

/-! ## Where the species differ from one catalog -/

/-- Weights that add up to a negative number. -/
def negative : List SpeciesMesh.Species := [⟨"a", [[row 0 1]]⟩, ⟨"b", [[row 1 (-3)]]⟩]

def negOne : Content := .particles (fun _ => 1) none none [[row 0 1, row 1 (-3)]]

/-- Weights which add up to a negative number: a mesh of several species is divided by their (negative) sum, a mesh of one catalog is set to one. The powers
differ. -/
theorem species_negative : ∃ f f', compute world serial 1 (.species (fun _ => 1) none none negative) = .ok f ∧ compute world serial 1 (.mesh negOne) = .ok f' ∧
    Pipe.power world 1 f.coef f.coef 1 = ⟨4, 0⟩ ∧ Pipe.power world 1 f'.coef f'.coef 1 = ⟨0, 0⟩ := by
  obtain ⟨f, hf⟩ := species_ok world (by decide) serial (by decide) 1 (fun _ => 1) none none negative (by decide) (by decide +kernel) (by decide +kernel)
  obtain ⟨f', h1, h2⟩ := mesh_ok world serial 1 negOne (by decide) (by
    intro _ _ _ _ h
    cases h
    decide)
  refine ⟨f, f', hf, h2, ?_, ?_⟩
  · obtain ⟨a, -, -, -⟩ := species_direct world (by decide) serial 1 _ _ _ negative f hf
    unfold Pipe.power
    rw [a]
    decide +kernel
  · obtain ⟨a, -, -⟩ := Pipe.compute_direct world (by decide) serial 1 _ _ _ _ f' h1
    unfold Pipe.power
    rw [a]
    decide +kernel

/-- A species without objects: the shot noise, and with it an attribute of the result, is NaN, while one catalog with the same objects has a shot noise. -/
theorem species_empty (w : World) (mc : Machine) (V : ℚ) (comp : Nat → ℚ) (n : Option Nat) (sp : List SpeciesMesh.Species) (x : SpeciesMesh.Species) (hx : x ∈ sp)
    (h0 : SpeciesMesh.weightOf x = 0) (f : SpeciesMesh.Field) (hf : SpeciesMesh.toRealField mc.dest mc.maxc w.ncells V true sp = .ok f) :
    compute w mc V (.species comp n none sp) = .error .nan := by
  have := SpeciesMesh.shotnoise_nan _ _ _ _ _ _ _ hf x hx h0
  unfold compute computeSpecies
  simp only [hf, this]
  split <;> rfl

end NBK.MeshPower
