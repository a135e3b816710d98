/-
Where the compliance step of the multi-predicate PCD puts its variables.
-/
import Verif.PCD.MpCircuits
import Verif.PCD.SpLayout

namespace Snark
namespace PCD
open MultipackingGadget
variable {F : Type} [Field F]

theorem allocMessagesOf_replicate (len n : Nat) (b : Board) : allocMessagesOf (List.replicate n len) b =
    ((List.range n).map (fun i => List.range' (b.nextVar + i * (1 + len)) (1 + len)), { b with nextVar := b.nextVar + n * (1 + len) }) := by
  induction n generalizing b with
  | zero => simp [allocMessagesOf]
  | succ n ih =>
    rw [List.replicate_succ, allocMessagesOf]
    simp only [Board.allocN, Board.alloc, ih, List.range_succ_eq_map, List.map_cons, List.map_map, Nat.zero_mul, Nat.add_zero]
    refine Prod.ext (congrArg₂ List.cons ?_ (List.map_congr_left fun i _ => ?_)) ?_
    · rw [show 1 + len = len + 1 by omega, List.range'_succ]
    · simp only [Function.comp, Nat.succ_mul]; congr 1; omega
    · simp only [Nat.succ_mul, Board.mk.injEq, and_true]; omega

theorem allocEach_replicate (w n : Nat) (b : Board) : allocEach (List.replicate n w) b =
    ((List.range n).map (fun i => List.range' (b.nextVar + i * w) w), { b with nextVar := b.nextVar + n * w }) := by
  induction n generalizing b with
  | zero => simp [allocEach]
  | succ n ih =>
    rw [List.replicate_succ, allocEach]
    simp only [Board.allocN, ih, List.range_succ_eq_map, List.map_cons, List.map_map, Nat.zero_mul, Nat.add_zero]
    refine Prod.ext (congrArg₂ List.cons rfl (List.map_congr_left fun i _ => ?_)) ?_
    · simp only [Function.comp, Nat.succ_mul]; congr 1; omega
    · simp only [Nat.succ_mul, Board.mk.injEq, and_true]; omega

namespace MpCompliance
variable {Vk Proof : Type} {ops : VerifierOps F Vk Proof} {H : HashOps F}

/-- the length of the payload of an incoming message -/
def inLen (cp : Predicate F) : Nat := cp.inLens.headD 0
/-- the number of bits of the outgoing message -/
def outSize (p : MpParams) (cp : Predicate F) : Nat := p.logsize * (1 + cp.outLen)
/-- the number of bits of an incoming message -/
def inSize (p : MpParams) (cp : Predicate F) : Nat := p.logsize * (1 + inLen cp)
/-- the first variable of the incoming messages -/
def inStart (p : MpParams) (cp : Predicate F) : Nat := p.dim + 3 + cp.outLen
/-- the first variable of the local data -/
def localStart (p : MpParams) (cp : Predicate F) : Nat := inStart p cp + cp.maxArity * (1 + inLen cp)
/-- the first of the bits of the messages -/
def bitStart (p : MpParams) (cp : Predicate F) : Nat := localStart p cp + cp.localLen + cp.witLen
/-- the first variable of the digests -/
def digestStart (p : MpParams) (cp : Predicate F) : Nat := bitStart p cp + outSize p cp + cp.maxArity * inSize p cp
/-- the first bit of the commitment -/
def commitStart (p : MpParams) (cp : Predicate F) : Nat := digestStart p cp + cp.maxArity * p.dim

/-- what the constructor has made -/
structure Made (p : MpParams) (cp : Predicate F) (s : Store F) (c : MpCompliance ops H) (bk b1 : Board) (sk : Store F) : Prop where
  cp_eq : c.cp = cp
  nonempty : cp.inLens ≠ []
  eqLen : ∀ l ∈ cp.inLens, l = inLen cp
  arityLe : cp.maxArity ≤ cp.inLens.length
  input : c.input = List.range' 1 p.dim
  outType : c.outType = p.dim + 1
  outVars : c.outVars = List.range' (p.dim + 1) (1 + cp.outLen)
  arity : c.arity = p.dim + 2 + cp.outLen
  inVars : c.inVars = (List.range cp.maxArity).map fun i => List.range' (inStart p cp + i * (1 + inLen cp)) (1 + inLen cp)
  localVars : c.localVars = List.range' (localStart p cp) cp.localLen
  witVars : c.witVars = List.range' (localStart p cp + cp.localLen) cp.witLen
  cpGadget : FromR1CS.create [c.outVars, [c.arity], c.inVars.flatten, c.localVars, c.witVars] cp.cs = .ok c.cpGadget
  outBits : c.outBits = List.range' (bitStart p cp) (outSize p cp)
  unpackOut : MultipackingGadget.create (c.outBits.map PLC.ofVar) (c.outVars.map PLC.ofVar) p.logsize = .ok c.unpackOut
  inBits : c.inBits = (List.range cp.maxArity).map fun i => List.range' (bitStart p cp + outSize p cp + i * inSize p cp) (inSize p cp)
  unpackIn : makeAll (fun x : List Nat × List Nat => MultipackingGadget.create (x.1.map PLC.ofVar) (x.2.map PLC.ofVar) p.logsize)
    (c.inBits.zip c.inVars) = .ok c.unpackIn
  digests : c.digests = (List.range cp.maxArity).map fun i => List.range' (digestStart p cp + i * p.dim) p.dim
  commitment : c.commitment = ⟨H.digestLen, List.range' (commitStart p cp) H.digestLen⟩
  membership : makeMembership H p cp c.commitment (ops.vkSize p.translationElts) ⟨commitStart p cp + H.digestLen, 0⟩ s =
    .ok (c.commonType, c.aux, c.keys, bk, sk)
  hashOut : Knapsack.FieldOut.create p.dim (H.digestLen + outSize p cp) (c.commitment.bits ++ c.outBits) (c.input.map PLC.ofVar) = .ok c.hashOut
  hashIn : makeAll (fun x : List Nat × List Nat =>
      Knapsack.FieldOut.create p.dim (H.digestLen + x.1.length) (c.commitment.bits ++ x.1) (x.2.map PLC.ofVar))
    (c.inBits.zip c.digests) = .ok c.hashIn
  zeroVar : c.zeroVar = bk.nextVar
  vks : makeVks ops p.translationElts (c.keys.map KeySlot.bits) { bk with nextVar := bk.nextVar + 1 } = .ok (c.vks, b1)
  results : c.results = List.range' b1.nextVar cp.maxArity
  slots : makeSlots p.toSpParams c.zeroVar cp.sameType c.vks 0 (c.digests.zip c.results) { b1 with nextVar := b1.nextVar + cp.maxArity } =
    .ok (c.slots, c.board)

omit [Field F] in
theorem lens_eq {cp : Predicate F} (he : ∀ l ∈ cp.inLens, l = inLen cp) {lens : List Nat}
    (h : makeAll (fun i => vget cp.inLens i) (List.range cp.maxArity) = .ok lens) :
    cp.maxArity ≤ cp.inLens.length ∧ lens = List.replicate cp.maxArity (inLen cp) := by
  obtain ⟨h1, h2⟩ := makeAll_ok h
  rw [List.length_range] at h1
  have h3 : ∀ i (hi : i < cp.maxArity), ∃ h : i < cp.inLens.length, cp.inLens[i] = lens[i]'(by omega) := by
    intro i hi
    have := h2 i (by simpa using hi) (by omega)
    rw [List.getElem_range, vget_eq_ok] at this
    obtain ⟨h, e⟩ := List.getElem?_eq_some_iff.1 this
    exact ⟨h, e⟩
  refine ⟨?_, List.ext_getElem (by simp [h1]) fun i hi hi' => ?_⟩
  · by_contra hlt
    obtain ⟨h, -⟩ := h3 cp.inLens.length (by omega)
    omega
  · obtain ⟨h, e⟩ := h3 i (by omega)
    rw [← e, List.getElem_replicate]
    exact he _ (List.getElem_mem _)

theorem create_made {p : MpParams} {cp : Predicate F} {s : Store F} {c : MpCompliance ops H} (h : create ops H p cp s = .ok c) :
    ∃ bk b1 sk, Made p cp s c bk b1 sk := by
  rw [create, bind_eq_ok] at h
  obtain ⟨_, h1, h⟩ := h
  rw [cassert_eq_ok] at h1
  rw [bind_eq_ok] at h
  obtain ⟨l0, hl0, h⟩ := h
  have hne : cp.inLens ≠ [] := by
    intro h0
    rw [h0] at hl0
    cases hl0
  have heq : ∀ l ∈ cp.inLens, l = inLen cp := by
    intro l hl
    refine (Predicate.C59_equal_lengths cp).2.1 h1 l hl _ ?_
    rw [inLen]
    cases hc : cp.inLens with
    | nil => exact absurd hc hne
    | cons a as => simp
  simp only [Board.allocN, Board.alloc] at h
  rw [bind_eq_ok] at h
  obtain ⟨lens, hlens, h⟩ := h
  obtain ⟨hle, rfl⟩ := lens_eq heq hlens
  simp only [allocMany_eq, allocMessagesOf_replicate, allocEach_replicate, List.map_replicate, DigestVariable.create, Board.allocN] at h
  rw [bind_eq_ok] at h
  obtain ⟨g, hg, h⟩ := h
  rw [bind_eq_ok] at h
  obtain ⟨uo, huo, h⟩ := h
  rw [bind_eq_ok] at h
  obtain ⟨ui, hui, h⟩ := h
  rw [bind_eq_ok] at h
  obtain ⟨⟨co, aux, keys, bk, sk⟩, hmem, h⟩ := h
  rw [bind_eq_ok] at h
  obtain ⟨ho, hho, h⟩ := h
  rw [bind_eq_ok] at h
  obtain ⟨hi, hhi, h⟩ := h
  rw [bind_eq_ok] at h
  obtain ⟨⟨vk, b1⟩, hvk, h⟩ := h
  rw [bind_eq_ok] at h
  obtain ⟨⟨sl, b2⟩, hsl, h⟩ := h
  injection h with h
  subst h
  have e1 : 1 + p.dim = p.dim + 1 := by omega
  have e2 : p.dim + 1 + 1 + cp.outLen = p.dim + 2 + cp.outLen := by omega
  have e3 : p.dim + 2 + cp.outLen + 1 = inStart p cp := by rw [inStart]; omega
  have e4 : (p.dim + 1) :: List.range' (p.dim + 1 + 1) cp.outLen = List.range' (p.dim + 1) (1 + cp.outLen) := by
    rw [show 1 + cp.outLen = cp.outLen + 1 by omega, List.range'_succ]
  rw [e1] at hg huo hui hmem hho hhi hsl
  simp only [e4, e2, e3] at hg huo hui hmem hho hhi hsl
  refine ⟨bk, b1, sk, ?_⟩
  constructor
  case cp_eq => rfl
  case nonempty => exact hne
  case eqLen => exact heq
  case arityLe => exact hle
  case input => rfl
  case outType => exact e1
  case outVars => simp only []; rw [e1, e4]
  case arity => simp only []; omega
  case inVars => simp only []; rw [e1, e2, e3]
  case localVars => simp only []; rw [e1, e2, e3]; rfl
  case witVars => simp only []; rw [e1, e2, e3]; rfl
  case cpGadget => simp only [e1, e2, e3, e4]; exact hg
  case outBits => simp only []; rw [e1, e2, e3]; rfl
  case unpackOut => simp only [e1, e2, e3, e4]; exact huo
  case inBits => simp only []; rw [e1, e2, e3]; rfl
  case unpackIn => simp only [e1, e2, e3]; exact hui
  case digests => simp only []; rw [e1, e2, e3]; rfl
  case commitment => simp only []; rw [e1, e2, e3]; rfl
  case membership => simp only [e1, e2, e3]; exact hmem
  case hashOut => simp only [e1, e2, e3]; exact hho
  case hashIn => simp only [e1, e2, e3]; exact hhi
  case zeroVar => rfl
  case vks => exact hvk
  case results => rfl
  case slots => simp only [e1, e2, e3]; exact hsl

end MpCompliance
end PCD
end Snark
