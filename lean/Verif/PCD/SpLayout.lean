/-
Where the circuits of the single-predicate PCD put their variables.
-/
import Verif.PCD.SpCircuits
import Verif.PCD.PredicateProps
import Verif.Gadgets.FromR1CSProps
import Verif.Hashes.KnapsackProps
import Verif.Routing.GadgetLemmas

namespace Snark
namespace PCD
open MultipackingGadget
variable {F : Type} [Field F]

theorem allocMany_eq (w n : Nat) (b : Board) :
    allocMany w n b = ((List.range n).map (fun i => List.range' (b.nextVar + i * w) w), { b with nextVar := b.nextVar + n * w }) := by
  induction n with
  | zero => simp [allocMany]
  | succ n ih =>
    rw [allocMany, ih]
    simp only [Board.allocN, List.range_succ, List.map_append, List.map_cons, List.map_nil]
    rw [show b.nextVar + (n + 1) * w = b.nextVar + n * w + w by rw [Nat.succ_mul]; omega]

theorem allocMessages_eq (len n : Nat) (b : Board) :
    allocMessages len n b = ((List.range n).map (fun i => List.range' (b.nextVar + i * (1 + len)) (1 + len)),
      { b with nextVar := b.nextVar + n * (1 + len) }) := by
  induction n with
  | zero => simp [allocMessages]
  | succ n ih =>
    rw [allocMessages, ih]
    simp only [Board.allocN, Board.alloc, List.range_succ, List.map_append, List.map_cons, List.map_nil]
    rw [show b.nextVar + (n + 1) * (1 + len) = b.nextVar + n * (1 + len) + 1 + len by rw [Nat.succ_mul]; omega]
    rw [show (1 + len) = len + 1 by omega, List.range'_succ]

theorem makeAll_ok {α β : Type} {f : α → Res β} : ∀ {xs : List α} {ys : List β}, makeAll f xs = .ok ys →
    ys.length = xs.length ∧ ∀ i (h : i < xs.length) (h' : i < ys.length), f xs[i] = .ok ys[i]
  | [], ys, h => by
    injection h with h; subst h
    exact ⟨rfl, fun i h => by simp at h⟩
  | x :: xs, ys, h => by
    rw [makeAll, bind_eq_ok] at h
    obtain ⟨y, hy, h⟩ := h
    rw [bind_eq_ok] at h
    obtain ⟨zs, hz, h⟩ := h
    injection h with h; subst h
    obtain ⟨h1, h2⟩ := makeAll_ok hz
    refine ⟨by simp [h1], fun i h h' => ?_⟩
    cases i with
    | zero => exact hy
    | succ i => exact h2 i (by simpa using h) (by simpa using h')

theorem makeAll_of {α β : Type} {f : α → Res β} : ∀ {xs : List α}, (∀ x ∈ xs, ∃ y, f x = .ok y) → ∃ ys, makeAll f xs = .ok ys
  | [], _ => ⟨[], rfl⟩
  | x :: xs, h => by
    obtain ⟨y, hy⟩ := h x (by simp)
    obtain ⟨ys, hys⟩ := makeAll_of fun x hx => h x (List.mem_cons_of_mem _ hx)
    exact ⟨y :: ys, by rw [makeAll, hy, bind_ok, hys, bind_ok]⟩

namespace SpCompliance
variable {Vk Proof : Type} {ops : VerifierOps F Vk Proof}

/-- the number of bits of a message -/
def msgSize (p : SpParams) (cp : Predicate F) : Nat := p.logsize * (1 + cp.outLen)
/-- the first variable of the incoming messages -/
def inStart (p : SpParams) (cp : Predicate F) : Nat := p.dim + 3 + cp.outLen
/-- the first variable of the local data -/
def localStart (p : SpParams) (cp : Predicate F) : Nat := inStart p cp + cp.maxArity * (1 + cp.outLen)
/-- the first of the bits of the messages -/
def bitStart (p : SpParams) (cp : Predicate F) : Nat := localStart p cp + cp.localLen + cp.witLen
/-- the first variable of the digests -/
def digestStart (p : SpParams) (cp : Predicate F) : Nat := bitStart p cp + msgSize p cp + cp.maxArity * msgSize p cp
/-- the first bit of the key -/
def vkStart (p : SpParams) (cp : Predicate F) : Nat := digestStart p cp + cp.maxArity * p.dim
/-- the variable that is zero -/
def zeroAt (ops : VerifierOps F Vk Proof) (p : SpParams) (cp : Predicate F) : Nat := vkStart p cp + ops.vkSize p.translationElts

/-- what the constructor has made -/
structure Made (p : SpParams) (cp : Predicate F) (c : SpCompliance ops) (b1 : Board) : Prop where
  cp_eq : c.cp = cp
  wf : cp.isWellFormed = true
  eqLen : cp.hasEqualInputAndOutputLengths = true
  input : c.input = List.range' 1 p.dim
  outType : c.outType = p.dim + 1
  outVars : c.outVars = List.range' (p.dim + 1) (1 + cp.outLen)
  arity : c.arity = p.dim + 2 + cp.outLen
  inVars : c.inVars = (List.range cp.maxArity).map fun i => List.range' (inStart p cp + i * (1 + cp.outLen)) (1 + cp.outLen)
  localVars : c.localVars = List.range' (localStart p cp) cp.localLen
  witVars : c.witVars = List.range' (localStart p cp + cp.localLen) cp.witLen
  cpGadget : FromR1CS.create [c.outVars, [c.arity], c.inVars.flatten, c.localVars, c.witVars] cp.cs = .ok c.cpGadget
  outBits : c.outBits = List.range' (bitStart p cp) (msgSize p cp)
  unpackOut : MultipackingGadget.create (c.outBits.map PLC.ofVar) (c.outVars.map PLC.ofVar) p.logsize = .ok c.unpackOut
  inBits : c.inBits = (List.range cp.maxArity).map fun i => List.range' (bitStart p cp + msgSize p cp + i * msgSize p cp) (msgSize p cp)
  unpackIn : makeAll (fun x : List Nat × List Nat => MultipackingGadget.create (x.1.map PLC.ofVar) (x.2.map PLC.ofVar) p.logsize)
    (c.inBits.zip c.inVars) = .ok c.unpackIn
  digests : c.digests = (List.range cp.maxArity).map fun i => List.range' (digestStart p cp + i * p.dim) p.dim
  vkBits : c.vkBits = List.range' (vkStart p cp) (ops.vkSize p.translationElts)
  hashOut : Knapsack.FieldOut.create p.dim (msgSize p cp + ops.vkSize p.translationElts) (c.vkBits ++ c.outBits)
    (c.input.map PLC.ofVar) = .ok c.hashOut
  hashIn : makeAll (fun x : List Nat × List Nat => Knapsack.FieldOut.create p.dim (msgSize p cp + ops.vkSize p.translationElts)
    (c.vkBits ++ x.1) (x.2.map PLC.ofVar)) (c.inBits.zip c.digests) = .ok c.hashIn
  zeroVar : c.zeroVar = zeroAt ops p cp
  vk : ops.vkCreate ⟨zeroAt ops p cp + 1, 0⟩ c.vkBits p.translationElts = .ok (c.vk, b1)
  result : c.result = b1.nextVar
  slots : makeSlots p c.zeroVar c.vk c.result c.digests { b1 with nextVar := b1.nextVar + 1 } = .ok (c.slots, c.board)

theorem create_made {p : SpParams} {cp : Predicate F} {c : SpCompliance ops} (h : create ops p cp = .ok c) :
    ∃ b1, Made p cp c b1 := by
  rw [create, bind_eq_ok] at h
  obtain ⟨_, h1, h⟩ := h
  rw [bind_eq_ok] at h
  obtain ⟨_, h2, h⟩ := h
  rw [cassert_eq_ok] at h1 h2
  simp only [Board.allocN, Board.alloc, allocMany_eq, allocMessages_eq] at h
  rw [bind_eq_ok] at h
  obtain ⟨g, hg, h⟩ := h
  rw [bind_eq_ok] at h
  obtain ⟨uo, huo, h⟩ := h
  rw [bind_eq_ok] at h
  obtain ⟨ui, hui, h⟩ := h
  rw [bind_eq_ok] at h
  obtain ⟨ho, hho, h⟩ := h
  rw [bind_eq_ok] at h
  obtain ⟨hi, hhi, h⟩ := h
  rw [bind_eq_ok] at h
  obtain ⟨⟨vk, b1⟩, hvk, h⟩ := h
  rw [bind_eq_ok] at h
  obtain ⟨⟨sl, b2⟩, hsl, h⟩ := h
  injection h with h
  subst h
  have e1 : 1 + p.dim = p.dim + 1 := by omega
  have e2 : p.dim + 1 + 1 + cp.outLen = p.dim + 2 + cp.outLen := by omega
  have e3 : p.dim + 2 + cp.outLen + 1 = inStart p cp := by rw [inStart]; omega
  have e4 : (p.dim + 1) :: List.range' (p.dim + 1 + 1) cp.outLen = List.range' (p.dim + 1) (1 + cp.outLen) := by
    rw [show 1 + cp.outLen = cp.outLen + 1 by omega, List.range'_succ]
  rw [e1] at hg huo hui hho hhi hvk hsl
  simp only [e4, e2, e3] at hg huo hui hho hhi hvk hsl
  refine ⟨b1, ?_⟩
  constructor
  case cp_eq => rfl
  case wf => exact h1
  case eqLen => exact h2
  case input => rfl
  case outType => exact e1
  case outVars => simp only []; rw [e1, e4]
  case arity => simp only []; omega
  case inVars => simp only []; rw [e1, e2, e3]
  case localVars => simp only []; rw [e1, e2, e3]; rfl
  case witVars => simp only []; rw [e1, e2, e3]; rfl
  case cpGadget => simp only [e1, e2, e3, e4]; exact hg
  case outBits => simp only []; rw [e1, e2, e3]; rfl
  case unpackOut => simp only [e1, e2, e3, e4]; exact huo
  case inBits => simp only []; rw [e1, e2, e3]; rfl
  case unpackIn => simp only [e1, e2, e3]; exact hui
  case digests => simp only []; rw [e1, e2, e3]; rfl
  case vkBits => simp only []; rw [e1, e2, e3]; rfl
  case hashOut => simp only [e1, e2, e3]; exact hho
  case hashIn => simp only [e1, e2, e3]; exact hhi
  case zeroVar => simp only []; rw [e1, e2, e3]; rfl
  case vk => simp only [e1, e2, e3]; exact hvk
  case result => rfl
  case slots => simp only [e1, e2, e3]; exact hsl

end SpCompliance
end PCD
end Snark
