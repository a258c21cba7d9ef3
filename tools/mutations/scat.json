[
 {
  "file": "Scat/Model.lean",
  "def": "scalingFactor",
  "old": "if t < form then some p.initialScaling else some 1",
  "new": "if t < form then some 1 else some p.initialScaling",
  "edit": "step function inverted",
  "claim": "C78"
 },
 {
  "file": "Scat/Model.lean",
  "def": "scalingFactor",
  "old": "else if form ≤ t then some 1",
  "new": "else if form ≤ p.pos.t then some 1",
  "edit": "formation tested at the present time instead of the collision time",
  "claim": "C78: factor 1 once formed at the time of interest"
 },
 {
  "file": "Scat/Model.lean",
  "def": "scalingFactor",
  "old": "((t - begin_) / (form - begin_)) ^ power)",
  "new": "((t - begin_) / form) ^ power)",
  "edit": "fraction of formation not relative to the start of formation",
  "claim": "C78 range and growth"
 },
 {
  "file": "Scat/Model.lean",
  "def": "scalingFactor",
  "old": "some (p.initialScaling + (1 - p.initialScaling) *",
  "new": "some (p.initialScaling + p.initialScaling *",
  "edit": "growth scaled with the initial factor instead of its complement",
  "claim": "C78 range"
 },
 {
  "file": "Scat/Model.lean",
  "def": "usedMom",
  "old": "if p.id.toNat < beam.length ∧ p.ncoll = 0 then",
  "new": "if p.id.toNat < beam.length then",
  "edit": "beam momentum also used after the first interaction",
  "claim": "C53: with the momenta the pair moves with (the property leaves usedMom as definition)"
 },
 {
  "file": "Scat/Model.lean",
  "def": "covTime",
  "old": "(p2.sqr * p1.dot dx - p1.dot p2 * p2.dot dx) * p1.t / den",
  "new": "(p2.sqr * p1.dot dx - p1.dot p2 * p2.dot dx) * p2.t / den",
  "edit": "energy of the wrong particle",
  "claim": "C77 covariant time"
 },
 {
  "file": "Scat/Model.lean",
  "def": "covTime",
  "old": "let time2 := -(p1.sqr",
  "new": "let time2 := (p1.sqr",
  "edit": "sign lost",
  "claim": "C77 covariant time"
 },
 {
  "file": "Scat/Model.lean",
  "def": "covTime",
  "old": "(time1 + time2) / 2",
  "new": "time1",
  "edit": "first time only",
  "claim": "C77: mean of both times"
 },
 {
  "file": "Scat/Model.lean",
  "def": "geoTime",
  "old": "(p1.vec.smul p2.t).sub (p2.vec.smul p1.t)",
  "new": "(p1.vec.smul p1.t).sub (p2.vec.smul p2.t)",
  "edit": "energies swapped",
  "claim": "C53 closest approach"
 },
 {
  "file": "Scat/Model.lean",
  "def": "geoTime",
  "old": "(-(dr.dot dv)) * (p1.t * p2.t / dv.sqr)",
  "new": "(dr.dot dv) * (p1.t * p2.t / dv.sqr)",
  "edit": "sign lost",
  "claim": "C53 closest approach"
 },
 {
  "file": "Scat/Model.lean",
  "def": "geoTime",
  "old": "(p1.t * p2.t / dv.sqr)",
  "new": "(1 / dv.sqr)",
  "edit": "factor of energies missing",
  "claim": "C53 closest approach"
 },
 {
  "file": "Scat/Model.lean",
  "def": "transverseDist2",
  "old": "let v := (pa.add pb).velocity",
  "new": "let v := pa.velocity",
  "edit": "boost to the rest frame of the first particle",
  "claim": "C77 distance in the CM frame"
 },
 {
  "file": "Scat/Model.lean",
  "def": "transverseDist2",
  "old": "let dr := (boost xa v).vec.sub (boost xb v).vec",
  "new": "let dr := xa.vec.sub xb.vec",
  "edit": "positions not boosted",
  "claim": "C77 distance in the CM frame"
 },
 {
  "file": "Scat/Model.lean",
  "def": "transverseDist2",
  "old": "dr.dot dp * dr.dot dp / dp.sqr",
  "new": "dr.dot dp * dr.dot dp",
  "edit": "not divided by the momentum squared",
  "claim": "C77"
 },
 {
  "file": "Scat/Model.lean",
  "def": "transverseDist2",
  "old": "if result > 0 then result else 0",
  "new": "result",
  "edit": "no clipping: equivalent in exact arithmetic",
  "claim": "none, expected to survive"
 },
 {
  "file": "Scat/Model.lean",
  "def": "covTransverseDist2",
  "old": "- 2 * pa.dot pb * pa.dot dx * pb.dot dx",
  "new": "+ 2 * pa.dot pb * pa.dot dx * pb.dot dx",
  "edit": "sign",
  "claim": "C77 covariant distance"
 },
 {
  "file": "Scat/Model.lean",
  "def": "covTransverseDist2",
  "old": "(pa.sqr * (pb.dot dx) ^ 2 + pb.sqr * (pa.dot dx) ^ 2",
  "new": "(pa.sqr * (pa.dot dx) ^ 2 + pb.sqr * (pb.dot dx) ^ 2",
  "edit": "particles swapped",
  "claim": "C77 covariant distance"
 },
 {
  "file": "Scat/Model.lean",
  "def": "relativeVelocity",
  "old": "/ (2 * pa.t * pb.t)",
  "new": "/ (pa.t * pb.t)",
  "edit": "factor 2",
  "claim": "C77 relative velocity"
 },
 {
  "file": "Scat/Model.lean",
  "def": "lambdaTilde",
  "old": "- 4 * b * c",
  "new": "- 2 * b * c",
  "edit": "coefficient",
  "claim": "C77 relative velocity"
 },
 {
  "file": "Scat/Model.lean",
  "def": "maxDist2",
  "old": "e.maxXs / e.testparticles * fm2mb",
  "new": "e.maxXs * fm2mb",
  "edit": "test particles forgotten",
  "claim": "C53 geometric"
 },
 {
  "file": "Scat/Model.lean",
  "def": "banned",
  "old": "!e.allowWithin &&",
  "new": "e.allowWithin &&",
  "edit": "switch inverted",
  "claim": "C53 same nucleus"
 },
 {
  "file": "Scat/Model.lean",
  "def": "banned",
  "old": "(a.belongs == .target && b.belongs == .target)",
  "new": "(a.belongs == .target || b.belongs == .target)",
  "edit": "collisions with any target nucleon banned",
  "claim": "C53 geometric iff"
 },
 {
  "file": "Scat/Model.lean",
  "def": "banned",
  "old": "(a.ncoll == 0 && b.ncoll == 0)",
  "new": "(a.ncoll == 0 || b.ncoll == 0)",
  "edit": "ban also if one has interacted",
  "claim": "C53 geometric iff"
 },
 {
  "file": "Scat/Model.lean",
  "def": "scaledXs",
  "old": "e.xs a b * fm2mb / e.testparticles * fa * fb",
  "new": "e.xs a b * fm2mb / e.testparticles * fa * fa",
  "edit": "scaling factor of the second particle ignored",
  "claim": "C53 geometric"
 },
 {
  "file": "Scat/Model.lean",
  "def": "decide",
  "old": "if Lt 1 prob ∧ e.warnOnly = false then .error .highProb",
  "new": "if Lt 1 prob then .error .highProb",
  "edit": "always throws",
  "claim": "C53 stochastic"
 },
 {
  "file": "Scat/Model.lean",
  "def": "afterTime",
  "old": "if t < 0 ∨ t ≥ dt then",
  "new": "if t < 0 ∨ t > dt then",
  "edit": "collision exactly at the end of the step accepted (found again in the next step)",
  "claim": "C53 time < dt"
 },
 {
  "file": "Scat/Model.lean",
  "def": "afterTime",
  "old": "if t < 0 ∨ t ≥ dt then",
  "new": "if t ≥ dt then",
  "edit": "past collisions accepted",
  "claim": "C53 0 ≤ time"
 },
 {
  "file": "Scat/Model.lean",
  "def": "afterTime",
  "old": "else if a.process > 0 ∧ a.process = b.process then .ok none",
  "new": "else if a.process > 0 ∧ b.process > 0 then .ok none",
  "edit": "every pair of collided particles skipped",
  "claim": "C53 geometric iff"
 },
 {
  "file": "Scat/Model.lean",
  "def": "afterTime",
  "old": "else if a.process > 0 ∧ a.process = b.process then .ok none\n",
  "new": "",
  "edit": "pair that just collided accepted",
  "claim": "C53 just collided"
 },
 {
  "file": "Scat/Model.lean",
  "def": "checkTwo",
  "old": "else if e.crit = .stochastic ∧ vol < reallySmall then .ok none\n",
  "new": "",
  "edit": "no volume check",
  "claim": "C53 stochastic"
 },
 {
  "file": "Scat/Model.lean",
  "def": "checkMulti",
  "old": "l.all (·.belongs == .projectile) || l.all (·.belongs == .target)",
  "new": "l.all (·.belongs == .projectile)",
  "edit": "target nucleus forgotten",
  "claim": "C53 multi"
 },
 {
  "file": "Scat/Model.lean",
  "def": "checkMulti",
  "old": "^ (l.length - 1)",
  "new": "^ l.length",
  "edit": "power of the test particle number",
  "claim": "C53 multi"
 },
 {
  "file": "Scat/Model.lean",
  "def": "cellCandidates",
  "old": "(if p1.id < p2.id then [[p1, p2]] else [])",
  "new": "(if p1.id ≤ p2.id then [[p1, p2]] else [])",
  "edit": "particle paired with itself",
  "claim": "C53 distinct particles"
 },
 {
  "file": "Scat/Model.lean",
  "def": "cellCandidates",
  "old": "(if p1.id < p2.id then [[p1, p2]] else [])",
  "new": "(if p1.id ≠ p2.id then [[p1, p2]] else [])",
  "edit": "every pair twice",
  "claim": "C53 each pair once"
 },
 {
  "file": "Scat/Model.lean",
  "def": "cellCandidates",
  "old": "if (e.deuteron32 || e.meson31) ∧ p1.id < p2.id ∧ p2.id < p3.id then",
  "new": "if (e.deuteron32 || e.meson31) ∧ p2.id < p3.id then",
  "edit": "first ordering forgotten",
  "claim": "C53 each set once"
 },
 {
  "file": "Scat/Model.lean",
  "def": "cellCandidates",
  "old": "if e.nnbar52 ∧ search.length ≥ 5 then",
  "new": "if e.nnbar52 ∧ search.length > 5 then",
  "edit": "cells with exactly five particles skipped",
  "claim": "C53 candidates"
 },
 {
  "file": "Scat/Model.lean",
  "def": "cellCandidates",
  "old": "p1.isPion ∧ p2.isPion ∧ p3.isPion ∧ p4.isPion ∧ p5.isPion",
  "new": "p1.isPion ∧ p2.isPion ∧ p3.isPion ∧ p4.isPion",
  "edit": "fifth particle may be anything",
  "claim": "C53 candidates"
 },
 {
  "file": "Scat/Model.lean",
  "def": "neighborCandidates",
  "old": "if e.crit = .stochastic then [] else\n  search.flatMap fun p1 =>",
  "new": "search.flatMap fun p1 =>",
  "edit": "stochastic criterion also searched between cells",
  "claim": "C53 neighbours"
 },
 {
  "file": "Scat/Model.lean",
  "def": "surroundingCandidates",
  "old": "if search.any (fun p => p.id == p2.id) then []\n    else search.map",
  "new": "search.map",
  "edit": "outgoing particles paired with each other and themselves",
  "claim": "C53 surrounding"
 }
]