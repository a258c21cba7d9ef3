import Verif.Pdg.Model

/-!
The channels of the strangeness reactions of `CrossSections` (src/crosssections.cc): for each pair of
incoming baryon and meson the outgoing particles and the parametrisation of the cross section. The
rows were transcribed from the switch statements one by one, in their order.
-/

namespace Verif.Sec

/-- The parametrisations used (parametrizations.h; their values are oracles). -/
inductive Par
  | piPpSigmaPKP | piMpSigmaMKP | piMpSigmaZKZ | piMpLambdaKZ
  | kPpInel | kPnInel | kMpPiMSigmaP | kMpPiPSigmaM | kMpPiZSigmaZ | kMpPiZLambda
  | kMnPiMSigmaZ | kMnPiMLambda | kMpKbarZn | kPnKZp
  deriving DecidableEq

/-- Which switch of the configuration a channel needs: `incl_Strangeness_exchange`, `incl_KN_to_KN`,
`incl_KN_to_KDelta` (crosssections.cc:1306-1311). -/
inductive Flag
  | always | strange | knkn | knkd
  deriving DecidableEq

/-- The expressions returned by the closures given to `add_channel`. -/
inductive Formula
  /-- the parametrisation itself -/
  | par (p : Par)
  /-- `0.5 * p` -/
  | half (p : Par)
  /-- `0.5 * (piplusp_sigmapluskplus - piminusp_sigma0k0 + piminusp_sigmaminuskplus)`,
  crosssections.cc:606-610 -/
  | sigmaZero
  /-- `p * kaon_nucleon_ratios.get_ratio(nucleon, kaon, c, d)`, crosssections.cc:1371-1375 -/
  | ratio (p : Par) (c d : Int)
  /-- `detailed_balance_factor_stable(s, hyperon, pion, c, d) * p`, crosssections.cc:1958-1962 -/
  | balance (p : Par) (c d : Int)
  /-- `detailed_balance_factor_RK(sqrts, pcm, delta, kaon, c, d) * get_ratio(c, d, kaon, delta) * p`,
  crosssections.cc:1810-1816 -/
  | balanceR (p : Par) (c d : Int)
  deriving DecidableEq

/-- One channel: incoming baryon and meson (PDG codes in hexadecimal, pdgcode_constants.h:34-110),
the switch it needs, its cross section and the outgoing particles. -/
structure Row where
  (baryon meson : Int)
  flag : Flag
  xs : Formula
  (out1 out2 : Int)
  deriving DecidableEq

/-- `CrossSections::npi_yk`: nucleon + pion to hyperon + kaon, crosssections.cc:546-774. -/
def npiYk : List Row := [
  ⟨(0x2212), (0x211), .always, .par .piPpSigmaPKP, (0x321), (0x3222)⟩,
  ⟨(0x2212), (-0x211), .always, .par .piMpSigmaMKP, (0x321), (0x3112)⟩,
  ⟨(0x2212), (-0x211), .always, .par .piMpSigmaZKZ, (0x311), (0x3212)⟩,
  ⟨(0x2212), (-0x211), .always, .par .piMpLambdaKZ, (0x311), (0x3122)⟩,
  ⟨(0x2212), (0x111), .always, .sigmaZero, (0x321), (0x3212)⟩,
  ⟨(0x2212), (0x111), .always, .par .piMpSigmaZKZ, (0x311), (0x3222)⟩,
  ⟨(0x2212), (0x111), .always, .half .piMpLambdaKZ, (0x321), (0x3122)⟩,
  ⟨(0x2112), (0x211), .always, .par .piMpSigmaMKP, (0x311), (0x3222)⟩,
  ⟨(0x2112), (0x211), .always, .par .piMpSigmaZKZ, (0x321), (0x3212)⟩,
  ⟨(0x2112), (0x211), .always, .par .piMpLambdaKZ, (0x321), (0x3122)⟩,
  ⟨(0x2112), (-0x211), .always, .par .piPpSigmaPKP, (0x311), (0x3112)⟩,
  ⟨(0x2112), (0x111), .always, .sigmaZero, (0x311), (0x3212)⟩,
  ⟨(0x2112), (0x111), .always, .par .piMpSigmaZKZ, (0x321), (0x3112)⟩,
  ⟨(0x2112), (0x111), .always, .half .piMpLambdaKZ, (0x311), (0x3122)⟩,
  ⟨(-0x2212), (0x211), .always, .par .piMpSigmaMKP, (-0x321), (-0x3112)⟩,
  ⟨(-0x2212), (0x211), .always, .par .piMpSigmaZKZ, (-0x311), (-0x3212)⟩,
  ⟨(-0x2212), (0x211), .always, .par .piMpLambdaKZ, (-0x311), (-0x3122)⟩,
  ⟨(-0x2212), (-0x211), .always, .par .piPpSigmaPKP, (-0x321), (-0x3222)⟩,
  ⟨(-0x2212), (0x111), .always, .sigmaZero, (-0x321), (-0x3212)⟩,
  ⟨(-0x2212), (0x111), .always, .par .piMpSigmaZKZ, (-0x311), (-0x3222)⟩,
  ⟨(-0x2212), (0x111), .always, .half .piMpLambdaKZ, (-0x321), (-0x3122)⟩,
  ⟨(-0x2112), (0x211), .always, .par .piPpSigmaPKP, (-0x311), (-0x3112)⟩,
  ⟨(-0x2112), (-0x211), .always, .par .piMpSigmaMKP, (-0x311), (-0x3222)⟩,
  ⟨(-0x2112), (-0x211), .always, .par .piMpSigmaZKZ, (-0x321), (-0x3212)⟩,
  ⟨(-0x2112), (-0x211), .always, .par .piMpLambdaKZ, (-0x321), (-0x3122)⟩,
  ⟨(-0x2112), (0x111), .always, .sigmaZero, (-0x311), (-0x3212)⟩,
  ⟨(-0x2112), (0x111), .always, .par .piMpSigmaZKZ, (-0x321), (-0x3112)⟩,
  ⟨(-0x2112), (0x111), .always, .half .piMpLambdaKZ, (-0x311), (-0x3122)⟩]

/-- `CrossSections::nk_xx`: nucleon + kaon, crosssections.cc:1280-1782. -/
def nkXx : List Row := [
  ⟨(0x2212), (-0x321), .strange, .par .kMpPiMSigmaP, (-0x211), (0x3222)⟩,
  ⟨(0x2212), (-0x321), .strange, .par .kMpPiPSigmaM, (0x211), (0x3112)⟩,
  ⟨(0x2212), (-0x321), .strange, .par .kMpPiZSigmaZ, (0x111), (0x3212)⟩,
  ⟨(0x2212), (-0x321), .strange, .par .kMpPiZLambda, (0x111), (0x3122)⟩,
  ⟨(0x2212), (-0x321), .knkn, .par .kMpKbarZn, (-0x311), (0x2112)⟩,
  ⟨(0x2112), (-0x321), .strange, .par .kMnPiMSigmaZ, (-0x211), (0x3212)⟩,
  ⟨(0x2112), (-0x321), .strange, .par .kMnPiMSigmaZ, (0x111), (0x3112)⟩,
  ⟨(0x2112), (-0x321), .strange, .par .kMnPiMLambda, (-0x211), (0x3122)⟩,
  ⟨(-0x2212), (-0x321), .knkd, .ratio .kPpInel (-0x311) (-0x2224), (-0x311), (-0x2224)⟩,
  ⟨(-0x2212), (-0x321), .knkd, .ratio .kPpInel (-0x321) (-0x2214), (-0x321), (-0x2214)⟩,
  ⟨(-0x2112), (-0x321), .knkd, .ratio .kPnInel (-0x311) (-0x2214), (-0x311), (-0x2214)⟩,
  ⟨(-0x2112), (-0x321), .knkd, .ratio .kPnInel (-0x321) (-0x2114), (-0x321), (-0x2114)⟩,
  ⟨(-0x2112), (-0x321), .knkn, .par .kPnKZp, (-0x311), (-0x2212)⟩,
  ⟨(0x2212), (0x321), .knkd, .ratio .kPpInel (0x311) (0x2224), (0x311), (0x2224)⟩,
  ⟨(0x2212), (0x321), .knkd, .ratio .kPpInel (0x321) (0x2214), (0x321), (0x2214)⟩,
  ⟨(0x2112), (0x321), .knkd, .ratio .kPnInel (0x311) (0x2214), (0x311), (0x2214)⟩,
  ⟨(0x2112), (0x321), .knkd, .ratio .kPnInel (0x321) (0x2114), (0x321), (0x2114)⟩,
  ⟨(0x2112), (0x321), .knkn, .par .kPnKZp, (0x311), (0x2212)⟩,
  ⟨(-0x2212), (0x321), .strange, .par .kMpPiMSigmaP, (0x211), (-0x3222)⟩,
  ⟨(-0x2212), (0x321), .strange, .par .kMpPiPSigmaM, (-0x211), (-0x3112)⟩,
  ⟨(-0x2212), (0x321), .strange, .par .kMpPiZSigmaZ, (0x111), (-0x3212)⟩,
  ⟨(-0x2212), (0x321), .strange, .par .kMpPiZLambda, (0x111), (-0x3122)⟩,
  ⟨(-0x2212), (0x321), .knkn, .par .kMpKbarZn, (0x311), (-0x2112)⟩,
  ⟨(-0x2112), (0x321), .strange, .par .kMnPiMSigmaZ, (0x211), (-0x3212)⟩,
  ⟨(-0x2112), (0x321), .strange, .par .kMnPiMSigmaZ, (0x111), (-0x3112)⟩,
  ⟨(-0x2112), (0x321), .strange, .par .kMnPiMLambda, (0x211), (-0x3122)⟩,
  ⟨(0x2212), (0x311), .knkd, .ratio .kPnInel (0x311) (0x2214), (0x311), (0x2214)⟩,
  ⟨(0x2212), (0x311), .knkd, .ratio .kPnInel (0x321) (0x2114), (0x321), (0x2114)⟩,
  ⟨(0x2212), (0x311), .knkn, .par .kPnKZp, (0x321), (0x2112)⟩,
  ⟨(0x2112), (0x311), .knkd, .ratio .kPpInel (0x311) (0x2114), (0x311), (0x2114)⟩,
  ⟨(0x2112), (0x311), .knkd, .ratio .kPpInel (0x321) (0x1114), (0x321), (0x1114)⟩,
  ⟨(-0x2212), (0x311), .strange, .par .kMnPiMSigmaZ, (-0x211), (-0x3212)⟩,
  ⟨(-0x2212), (0x311), .strange, .par .kMnPiMSigmaZ, (0x111), (-0x3222)⟩,
  ⟨(-0x2212), (0x311), .strange, .par .kMnPiMLambda, (-0x211), (-0x3122)⟩,
  ⟨(-0x2112), (0x311), .strange, .par .kMpPiMSigmaP, (-0x211), (-0x3112)⟩,
  ⟨(-0x2112), (0x311), .strange, .par .kMpPiPSigmaM, (0x211), (-0x3222)⟩,
  ⟨(-0x2112), (0x311), .strange, .par .kMpPiZSigmaZ, (0x111), (-0x3212)⟩,
  ⟨(-0x2112), (0x311), .strange, .par .kMpPiZLambda, (0x111), (-0x3122)⟩,
  ⟨(-0x2112), (0x311), .knkn, .par .kMpKbarZn, (0x321), (-0x2212)⟩,
  ⟨(0x2212), (-0x311), .strange, .par .kMnPiMSigmaZ, (0x111), (0x3222)⟩,
  ⟨(0x2212), (-0x311), .strange, .par .kMnPiMSigmaZ, (0x211), (0x3212)⟩,
  ⟨(0x2212), (-0x311), .strange, .par .kMnPiMLambda, (0x211), (0x3122)⟩,
  ⟨(0x2112), (-0x311), .strange, .par .kMpPiMSigmaP, (0x211), (0x3112)⟩,
  ⟨(0x2112), (-0x311), .strange, .par .kMpPiPSigmaM, (-0x211), (0x3222)⟩,
  ⟨(0x2112), (-0x311), .strange, .par .kMpPiZSigmaZ, (0x111), (0x3212)⟩,
  ⟨(0x2112), (-0x311), .strange, .par .kMpPiZLambda, (0x111), (0x3122)⟩,
  ⟨(0x2112), (-0x311), .knkn, .par .kMpKbarZn, (-0x321), (0x2212)⟩,
  ⟨(-0x2212), (-0x311), .knkd, .ratio .kPnInel (-0x311) (-0x2214), (-0x311), (-0x2214)⟩,
  ⟨(-0x2212), (-0x311), .knkd, .ratio .kPnInel (-0x321) (-0x2114), (-0x321), (-0x2114)⟩,
  ⟨(-0x2212), (-0x311), .knkn, .par .kPnKZp, (-0x321), (-0x2112)⟩,
  ⟨(-0x2112), (-0x311), .knkd, .ratio .kPpInel (-0x311) (-0x2114), (-0x311), (-0x2114)⟩,
  ⟨(-0x2112), (-0x311), .knkd, .ratio .kPpInel (-0x321) (-0x1114), (-0x321), (-0x1114)⟩]

/-- `CrossSections::deltak_xx`: Delta + kaon (each case label of a group of labels has its own rows), crosssections.cc:1784-1933. -/
def deltakXx : List Row := [
  ⟨(0x2224), (0x311), .always, .balanceR .kPpInel (0x2212) (0x321), (0x2212), (0x321)⟩,
  ⟨(0x2214), (0x321), .always, .balanceR .kPpInel (0x2212) (0x321), (0x2212), (0x321)⟩,
  ⟨(-0x2224), (-0x311), .always, .balanceR .kPpInel (-0x2212) (-0x321), (-0x2212), (-0x321)⟩,
  ⟨(-0x2214), (-0x321), .always, .balanceR .kPpInel (-0x2212) (-0x321), (-0x2212), (-0x321)⟩,
  ⟨(0x2214), (0x311), .always, .balanceR .kPnInel (0x2112) (0x321), (0x2112), (0x321)⟩,
  ⟨(0x2114), (0x321), .always, .balanceR .kPnInel (0x2112) (0x321), (0x2112), (0x321)⟩,
  ⟨(0x2214), (0x311), .always, .balanceR .kPnInel (0x2212) (0x311), (0x2212), (0x311)⟩,
  ⟨(0x2114), (0x321), .always, .balanceR .kPnInel (0x2212) (0x311), (0x2212), (0x311)⟩,
  ⟨(-0x2214), (-0x311), .always, .balanceR .kPnInel (-0x2112) (-0x321), (-0x2112), (-0x321)⟩,
  ⟨(-0x2114), (-0x321), .always, .balanceR .kPnInel (-0x2112) (-0x321), (-0x2112), (-0x321)⟩,
  ⟨(-0x2214), (-0x311), .always, .balanceR .kPnInel (-0x2212) (-0x311), (-0x2212), (-0x311)⟩,
  ⟨(-0x2114), (-0x321), .always, .balanceR .kPnInel (-0x2212) (-0x311), (-0x2212), (-0x311)⟩,
  ⟨(0x2114), (0x311), .always, .balanceR .kPpInel (0x2112) (0x311), (0x2112), (0x311)⟩,
  ⟨(0x1114), (0x321), .always, .balanceR .kPpInel (0x2112) (0x311), (0x2112), (0x311)⟩,
  ⟨(-0x2114), (-0x311), .always, .balanceR .kPpInel (-0x2112) (-0x311), (-0x2112), (-0x311)⟩,
  ⟨(-0x1114), (-0x321), .always, .balanceR .kPpInel (-0x2112) (-0x311), (-0x2112), (-0x311)⟩]

/-- `CrossSections::ypi_xx`: hyperon + pion, crosssections.cc:1935-2297. -/
def ypiXx : List Row := [
  ⟨(0x3212), (-0x211), .always, .balance .kMnPiMSigmaZ (0x2112) (-0x321), (0x2112), (-0x321)⟩,
  ⟨(0x3212), (0x211), .always, .balance .kMnPiMSigmaZ (0x2212) (-0x311), (0x2212), (-0x311)⟩,
  ⟨(-0x3212), (0x211), .always, .balance .kMnPiMSigmaZ (-0x2112) (0x321), (-0x2112), (0x321)⟩,
  ⟨(-0x3212), (-0x211), .always, .balance .kMnPiMSigmaZ (-0x2212) (0x311), (-0x2212), (0x311)⟩,
  ⟨(0x3112), (0x111), .always, .balance .kMnPiMSigmaZ (0x2112) (-0x321), (0x2112), (-0x321)⟩,
  ⟨(0x3222), (0x111), .always, .balance .kMnPiMSigmaZ (0x2212) (-0x311), (0x2212), (-0x311)⟩,
  ⟨(-0x3112), (0x111), .always, .balance .kMnPiMSigmaZ (-0x2112) (0x321), (-0x2112), (0x321)⟩,
  ⟨(-0x3222), (0x111), .always, .balance .kMnPiMSigmaZ (-0x2212) (0x311), (-0x2212), (0x311)⟩,
  ⟨(0x3122), (-0x211), .always, .balance .kMnPiMLambda (0x2112) (-0x321), (0x2112), (-0x321)⟩,
  ⟨(0x3122), (0x211), .always, .balance .kMnPiMLambda (0x2212) (-0x311), (0x2212), (-0x311)⟩,
  ⟨(-0x3122), (0x211), .always, .balance .kMnPiMLambda (-0x2112) (0x321), (-0x2112), (0x321)⟩,
  ⟨(-0x3122), (-0x211), .always, .balance .kMnPiMLambda (-0x2212) (0x311), (-0x2212), (0x311)⟩,
  ⟨(0x3212), (0x111), .always, .balance .kMpPiZSigmaZ (0x2212) (-0x321), (0x2212), (-0x321)⟩,
  ⟨(0x3212), (0x111), .always, .balance .kMpPiZSigmaZ (0x2112) (-0x311), (0x2112), (-0x311)⟩,
  ⟨(-0x3212), (0x111), .always, .balance .kMpPiZSigmaZ (-0x2212) (0x321), (-0x2212), (0x321)⟩,
  ⟨(-0x3212), (0x111), .always, .balance .kMpPiZSigmaZ (-0x2112) (0x311), (-0x2112), (0x311)⟩,
  ⟨(0x3112), (0x211), .always, .balance .kMpPiPSigmaM (0x2212) (-0x321), (0x2212), (-0x321)⟩,
  ⟨(0x3112), (0x211), .always, .balance .kMpPiMSigmaP (0x2112) (-0x311), (0x2112), (-0x311)⟩,
  ⟨(-0x3112), (-0x211), .always, .balance .kMpPiPSigmaM (-0x2212) (0x321), (-0x2212), (0x321)⟩,
  ⟨(-0x3112), (-0x211), .always, .balance .kMpPiMSigmaP (-0x2112) (0x311), (-0x2112), (0x311)⟩,
  ⟨(0x3122), (0x111), .always, .balance .kMpPiZLambda (0x2212) (-0x321), (0x2212), (-0x321)⟩,
  ⟨(0x3122), (0x111), .always, .balance .kMpPiZLambda (0x2112) (-0x311), (0x2112), (-0x311)⟩,
  ⟨(-0x3122), (0x111), .always, .balance .kMpPiZLambda (-0x2212) (0x321), (-0x2212), (0x321)⟩,
  ⟨(-0x3122), (0x111), .always, .balance .kMpPiZLambda (-0x2112) (0x311), (-0x2112), (0x311)⟩,
  ⟨(0x3222), (-0x211), .always, .balance .kMpPiMSigmaP (0x2212) (-0x321), (0x2212), (-0x321)⟩,
  ⟨(0x3222), (-0x211), .always, .balance .kMpPiPSigmaM (0x2112) (-0x311), (0x2112), (-0x311)⟩,
  ⟨(-0x3222), (0x211), .always, .balance .kMpPiMSigmaP (-0x2212) (0x321), (-0x2212), (0x321)⟩,
  ⟨(-0x3222), (0x211), .always, .balance .kMpPiPSigmaM (-0x2112) (0x311), (-0x2112), (0x311)⟩]

/-- The reactions whose isospin ratios are stored, parametrizations.cc:704-741: nucleon, kaon, the
outgoing kaon and Delta, and those of the other channel of the same pair. -/
def ratioTable : List (List Int) := [
  [0x2212, 0x321, 0x311, 0x2224, 0x321, 0x2214],
  [0x2212, 0x321, 0x321, 0x2214, 0x311, 0x2224],
  [0x2112, 0x321, 0x311, 0x2214, 0x321, 0x2114],
  [0x2112, 0x321, 0x321, 0x2114, 0x311, 0x2214],
  [0x2212, 0x311, 0x311, 0x2214, 0x321, 0x2114],
  [0x2212, 0x311, 0x321, 0x2114, 0x311, 0x2214],
  [0x2112, 0x311, 0x311, 0x2114, 0x321, 0x1114],
  [0x2112, 0x311, 0x321, 0x1114, 0x311, 0x2114]]

end Verif.Sec
