# Parts of the code cited by the model

Generated by `tools/coverage.py` from the comments of the Lean files.
Lines not listed are not modelled; files of `/repo/src` without any
citation are at the end.

| file | areas | lines |
|---|---|---|
| src/action.cc | Act, Exp, Ext, Fluid, Icb, Inter, Pauli, Pol, Wid | 29–56, 62–110, 128–158, 191–303, 316–447, 478–538 |
| src/alphaclusterednucleus.cc | Coll | 66–80 |
| src/binaryoutput.cc | Bin, Req | 26–224, 238, 247–258, 266–486 |
| src/boxmodus.cc | Box, Ini, Route | 82–85, 108–253 |
| src/bremsstrahlungaction.cc | Em, Spl | 28–63, 94–108, 115–126, 147–178, 188–273, 278–325 |
| src/chemicalpotential.cc | Chem | 29–43, 50–60, 92–172, 178–326 |
| src/clebschgordan.cc | Cg | 36–90 |
| src/clebschgordan_lookup.cc | Cg | 22–52 |
| src/collidermodus.cc | Coll, Deform, Fluid, Route | 36–46, 86–88, 102–245, 340–341, 358–359, 423–475, 499–582, 586–607, 616–642, 699–712 |
| src/configuration.cc | Config, Prog, Route | 40–62, 71–86, 95–104, 130–141, 179–204, 215–243, 258–359, 366–388, 410–424, 439–444, 523–533, 555–595, 607–621, 625–640 |
| src/crosssections.cc | Sec, Tot | 28–39, 47–62, 71–96, 111–115, 123–3124 |
| src/crosssectionsphoton.cc | Em | 55–60 |
| src/customnucleus.cc | Coll | 26–136, 145–153, 174–216 |
| src/decayaction.cc | Act, Fluid, Pol, Wid | 83–94, 99–137, 156–195 |
| src/decayactiondilepton.cc | Em | 20–88 |
| src/decayactionsfinder.cc | Em, Wid | 28–69, 74–96 |
| src/decayactionsfinderdilepton.cc | Em | 24–57, 66–91 |
| src/decaymodes.cc | Decay | 29–120, 137–495 |
| src/decaytype.cc | Dal, Decay, Wid | 62–68, 82–99, 165–177, 227–229, 255–293, 297–299, 333–483 |
| src/deformednucleus.cc | Deform | 27–37, 52–287 |
| src/density.cc | Dens, Lat, Tdo | 17–165, 186–230, 238–278 |
| src/distributions.cc | Ini, Wid | 25–64, 74–252 |
| src/dynamicfluidfinder.cc | Fluid | 18–160 |
| src/energymomentumtensor.cc | Emt | 23–163 |
| src/experiment.cc | Exp, Ext, Route | 145–147, 186–207, 329, 612, 623–657 |
| src/fields.cc | Pot | 47–72 |
| src/file.cc | Files | 19–25, 29–36 |
| src/filelock.cc | Files | 19–46 |
| src/fluidizationaction.cc | Fluid, Icb | 18–54 |
| src/fourvector.cc | Ext, Kin | 19–37 |
| src/fpenvironment.cc | Fpe | 23–86, 101–137 |
| src/grandcan_thermalizer.cc | Cell, Therm | 22–80, 135–250, 256–265, 270–291, 300–317, 322–511, 519–538, 546–552 |
| src/grid.cc | Grid | 86–112, 118–287, 294–339, 349–357, 361–487 |
| src/hadgas_eos.cc | Cell, Eos, Fpe, ThMass | 34–197, 223–246, 270–479, 554–564, 569–575, 586–634 |
| src/hepmcinterface.cc | Hep | 57–271 |
| src/hepmcoutput.cc | Riv | 240–276 |
| src/hypersurfacecrossingfinder.cc | Stream | 23–113, 117–188 |
| src/icoutput.cc | Fluid | 115–171 |
| src/include/smash/action.h | Act, Exp, Fluid, Multi, Scat | 44–46, 58–63, 140–148, 157–168, 315–322, 381, 415–435 |
| src/include/smash/actions.h | Actions | 42–44, 59–70, 79–83, 92–95, 101–106, 122–124 |
| src/include/smash/algorithms.h | Box, Lst | 52–68, 153–160 |
| src/include/smash/alphaclusterednucleus.h | Coll | 70–74 |
| src/include/smash/angles.h | Ang, Deform, Kin | 50–190, 199–211, 221–276, 281–292 |
| src/include/smash/average.h | Tab | 25–53, 65–96 |
| src/include/smash/binaryoutput.h | Bin | 82–100, 106, 131 |
| src/include/smash/boxmodus.h | Lat | 135–137 |
| src/include/smash/bremsstrahlungaction.h | Em | named only |
| src/include/smash/clebschgordan.h | Cg, Decay | 86–91, 101–117, 125–181 |
| src/include/smash/clebschgordan_lookup.h | Cg | 41–72, 163–187, 194–382 |
| src/include/smash/clock.h | Clock, Exp | 90, 119–126, 160, 223, 235–249, 253–261, 270–281, 289–300, 321–335, 349–355, 364–371, 379–381, 390–401, 412–415, 423–433, 439–444, 453–456, 463–485, 498–500 |
| src/include/smash/collidermodus.h | Lat | 134 |
| src/include/smash/configuration.h | Config, Enums, Log, Route | 514–577, 605–631, 689–695, 759–764, 773–779, 786–789, 795, 853–909, 943–981, 990–1015, 1024–1046, 1055–1070, 1079–1093, 1102–1127, 1136–1154, 1159–1174, 1179–1190, 1195–1210, 1219–1230, 1239–1254, 1263–1287, 1296–1314, 1323–1337, 1346–1360, 1369–1383, 1392–1401, 1410–1424, 1433–1454, 1464–1474, 1483–1497, 1506–1532, 1608–1616, 1630–1634 |
| src/include/smash/constants.h | Ang, Box, Chem, Coll, Dal, Decay, Dens, Em, Eos, Fluid, Icb, Kin, Lat, Lattice, Multi, Par, Pauli, Pot, Resc, Scat, Sec, Tot, Types, Wid | 29–52, 62–102 |
| src/include/smash/crosssections.h | Sec, Tot | 76–82, 560–564, 600–642 |
| src/include/smash/customnucleus.h | Coll | 26–37 |
| src/include/smash/decayaction.h | Pol | 138–162 |
| src/include/smash/decayactiondilepton.h | Em | 41–43 |
| src/include/smash/decaytype.h | Decay, Wid | 25–60 |
| src/include/smash/deformednucleus.h | Deform | 150–157 |
| src/include/smash/density.h | Dens, Lat | 60–63, 83–86, 92–180, 322–329, 406, 482–484, 535–636, 644–658 |
| src/include/smash/dynamicfluidfinder.h | Fluid | 42–56 |
| src/include/smash/energymomentumtensor.h | Emt, Td | 27, 32, 53–66, 141, 153–203 |
| src/include/smash/experiment.h | Actions, Bin, Cons, Em, Exp, Ext, Fluid, Icb, Lat, Pot, Req, Route, Td | 659–695, 730–890, 906–921, 945–962, 1450–1485, 1490–1597, 1625–1632, 1748–1944, 2116–2136, 2140–2256, 2262–2436, 2453–2676, 2697–3064, 3074–3080, 3098–3174, 3210–3243, 3252–3266 |
| src/include/smash/file.h | Files | 108 |
| src/include/smash/formfactors.h | Wid | 36–59, 80–88 |
| src/include/smash/forwarddeclarations.h | Enums, Fluid, Ini, Multi, Scat, Sec, Stream, Td, Therm | 58–89, 104–122, 129–161, 171–188, 194–226, 230–245, 249–254, 260–265, 276–280, 295–304, 310–324, 328–333, 338–346, 353–362 |
| src/include/smash/fourvector.h | Act, Emt, Ext, Fluid, Ini, Kin, Pot, Soft, Stream, Tdo | 33–316, 330–334, 340–412, 456–474, 478–484 |
| src/include/smash/fpenvironment.h | Fpe | 16–42, 93–98, 104 |
| src/include/smash/freeforallaction.h | Fluid | 24–53, 62–71 |
| src/include/smash/grandcan_thermalizer.h | Cell, Therm | 117–140, 151–166, 309–321, 366–417, 456–470, 493–497 |
| src/include/smash/grid.h | Grid | 24–43, 54–60, 110–120, 178–181 |
| src/include/smash/hadgas_eos.h | Cell, Eos | 58–69, 93–109, 195–198, 355–360, 431–432 |
| src/include/smash/hepmcinterface.h | Hep | 129–134 |
| src/include/smash/icoutput.h | Fluid | 89 |
| src/include/smash/input_keys.h | Log, Prog, Req, Route, Stream | 1120–1124, 1197–1198, 1334–1336, 1407–1410, 1599–2020, 2549–2552, 4977–5024, 5543–5546 |
| src/include/smash/inputfunctions.h | Prog | 102–107 |
| src/include/smash/integrate.h | Quad | 54–69, 79–93, 139–163, 178–182, 192–203, 232–234, 253–306 |
| src/include/smash/interpolation.h | Eos, Tab | 34–54, 62–101, 126–133, 147–153, 164–170, 185–186, 195–209, 230–292 |
| src/include/smash/interpolation2D.h | Spl | named only |
| src/include/smash/isoparticletype.h | Decay | 40–160 |
| src/include/smash/key.h | Config | named only |
| src/include/smash/kinematics.h | Kin, Tot | 29–33, 42–45, 55–60, 69–73, 81–84, 92–95, 108–119, 148–156, 174–200, 212–217, 226–228, 240–243, 252–254, 266–270 |
| src/include/smash/lattice.h | Dens, Lat, Lattice, Pot, Td | 68–92, 116–123, 133–137, 147–153, 186–188, 207–212, 223–229, 240–246, 257–263, 274–280, 291–297, 308–314, 322–409, 420–516, 531–538, 554–568, 580–611, 626–654, 667–677, 692–723, 736–772, 782–797, 812–849, 860–866 |
| src/include/smash/listmodus.h | Lat, Lst | 259–267, 347 |
| src/include/smash/logging.h | Enums, Log | 79, 91–136, 243–245, 255–262 |
| src/include/smash/lowess.h | Low | 33–98, 106–131, 139–260, 289–301 |
| src/include/smash/nucleus.h | Coll, Deform | 159–171, 178–196, 217–223, 351–361 |
| src/include/smash/numeric_cast.h | Cast, Grid, Lat, Lattice, Tab | 69–97 |
| src/include/smash/numerics.h | Ext, Kin, Types | 57–78, 88–91, 98–103 |
| src/include/smash/outputformatter.h | Bin | 35–185, 209–347, 362–382, 424–435, 446–495, 501–519, 533–614, 628–642, 694–743 |
| src/include/smash/outputinterface.h | Bin, Root, Td | 38–59, 131–200, 261–275, 282–302 |
| src/include/smash/outputparameters.h | Bin, Req, Riv, Route, Tdo | 29–56, 88–113, 231–264, 305–338 |
| src/include/smash/parametrizations.h | Sec, Tot | named only |
| src/include/smash/particledata.h | Act, Coll, Exp, Fluid, Lst, Particles, Scat, Stream, Therm, Wid | 31–49, 186–202, 264–272, 335–337, 343–346, 410, 484–495, 505–575 |
| src/include/smash/particles.h | Exp, Particles, Td | 87–90, 100–103, 120–131, 141–145, 175–182, 286–291, 395–425, 446–504 |
| src/include/smash/particletype.h | Decay, Sec, Therm, Types, Wid | 63–82, 90–220, 231–234, 243–250, 261–263, 300–330, 417, 431, 562–564, 763–766 |
| src/include/smash/pauliblocking.h | Pauli | 78–97 |
| src/include/smash/pdgcode.h | Chem, Decay, Em, Frag, Multi, Pdg, Sec, Tot, Types | 112, 143–150, 155–159, 250–274, 284–333, 339–352, 361–380, 388–407, 422–455, 465–474, 489–492, 504–513, 520–524, 533–599, 611, 618, 625, 635–665, 676–721, 739–775, 814–816, 837–856, 878–904, 914–996, 1002, 1010–1025, 1048–1142, 1153–1165, 1185–1202 |
| src/include/smash/pdgcode_constants.h | Em, Multi, Sec, Tot | 28–30, 34–124 |
| src/include/smash/potentials.h | Pot | 65–105, 118–192, 365–374, 383–393, 679–705, 721–752 |
| src/include/smash/pow.h | Ang | 22–28 |
| src/include/smash/processbranch.h | Act, Bin, Decay, Em, Sec, Soft, Tot, Wid | 39–90, 236–243, 255–280 |
| src/include/smash/quantumnumbers.h | Act, Cons, Therm | 53–63, 106–136, 205–210, 262–300 |
| src/include/smash/random.h | Rand | 87–90, 121–127, 148–153, 165–183, 189–192, 202–215, 306–315, 328–335, 350–358 |
| src/include/smash/rootoutput.h | Root | 138–195, 209 |
| src/include/smash/rootsolver.h | Pot | 36–40, 46–83, 92–100 |
| src/include/smash/scatteraction.h | Act | 275–335 |
| src/include/smash/scatteractionmulti.h | Multi | 286–291 |
| src/include/smash/scatteractionphoton.h | Em | 159–171, 284 |
| src/include/smash/scatteractionsfinder.h | Scat | 67–144, 225–230 |
| src/include/smash/scatteractionsfinderparameters.h | Tot | 67–162 |
| src/include/smash/sha256.h | Sha | 28–38 |
| src/include/smash/spheremodus.h | Lat | 81 |
| src/include/smash/stringfunctions.h | Types | 121–134 |
| src/include/smash/stringprocess.h | Hard, Ndh, Rem, Tot | 319–339, 764–776, 815–829, 1060–1094 |
| src/include/smash/tabulation.h | Tab | 26–30, 35–120 |
| src/include/smash/threevector.h | Kin | 31–170, 201–268, 275–338 |
| src/include/smash/tsc.h | Tsc | 82 |
| src/include/smash/vtkoutput.h | Td | 188–216 |
| src/inputfunctions.cc | Text | 20–45 |
| src/interpolation.cc | Tab | 14–37, 44–54 |
| src/interpolation2D.cc | Spl | 16–69 |
| src/isoparticletype.cc | Tab, Types | 37–39, 44–54, 60–66, 87–101, 120–130, 136–138, 158–179, 226–262 |
| src/library.cc | Log, Prog | 34–44, 54–100, 118–163 |
| src/listmodus.cc | Lst, Route | 75, 107–152, 256–310, 326, 332–409, 520–558 |
| src/logging.cc | Log | 51–77, 84–122 |
| src/nucleus.cc | Coll, Deform, Route | 38–90, 250–282, 286–530, 538–577 |
| src/oscaroutput.cc | Bin, Req | 27–28, 695–825, 889–970 |
| src/parametrizations.cc | Par, Sec, Tot | 40–156, 175–219, 241–254, 273–310, 363–485, 536–555, 574–616, 620–665, 688–697, 704–768, 772–808, 812–871 |
| src/particledata.cc | Act, Ext, Fluid, Lst, Pol, Pot, Scat | 25–166, 210–311 |
| src/particles.cc | Fluid, Particles | 17–146 |
| src/particletype.cc | Sec, ThMass, Tot, Types, Wid | 57–67, 89–133, 143–174, 183–325, 331–414, 424–431, 440–454, 473–537, 599–612, 632–684, 691–735, 776–826 |
| src/pauliblocking.cc | Pauli | 45–92, 98–137 |
| src/pdgcode.cc | Frag, Pdg | 31–84, 92–106 |
| src/potentials.cc | Pot | 18–69, 73–347 |
| src/processbranch.cc | Act, Wid | 18–24, 35–53 |
| src/propagation.cc | Exp, Pot, Stream | 21–231 |
| src/quantumnumbers.cc | Cons | 16–67 |
| src/quantumsampling.cc | Chem, Ini | 34–45, 75–172, 176–205, 211–244, 257–280 |
| src/random.cc | Rand, Therm | 21–31, 73–99 |
| src/rivetoutput.cc | Riv | 96–127, 147–151, 171–253 |
| src/rootoutput.cc | Root | 21, 270–277, 286–386, 400–619 |
| src/scatteraction.cc | Act, Ang, Fluid, Pol, Scat, Soft, Tot | 60–63, 74–104, 112–125, 137–188, 200–239, 324–328, 335–337, 357–613, 619–622, 630–667, 690–897 |
| src/scatteractionmulti.cc | Fluid, Multi | 57–581, 616–663 |
| src/scatteractionphoton.cc | Em | 38–88, 102–148, 156–192, 206–285, 302–317, 418–436, 442–506, 565–662 |
| src/scatteractionsfinder.cc | Scat, Tot, Xs | 210–564, 640–1105 |
| src/setup_particles_decaymodes.cc | Prog | 28–68 |
| src/sha256.cc | Sha | 21, 25–66, 71–86, 96–136, 140–179, 185–237 |
| src/smash.cc | Iss, Prog | 274–290, 298–313, 343–358, 373–702 |
| src/spheremodus.cc | Ini, Route | 52–55, 78–79, 86–96, 153–314 |
| src/stringfunctions.cc | Text | 29–71, 75–90, 113–135 |
| src/stringify.cc | Enums | 26–359 |
| src/stringprocess.cc | Ann, Frag, Glue, Hard, Ndh, Rem, Resc, Soft, Str | 160–203, 238–393, 412–441, 466–517, 659–1264, 1275–1683, 1687–1769, 1840–2055, 2059–2086, 2243–2781, 2788–3281 |
| src/tabulation.cc | Tab | 14–56, 75–79, 100–107, 127–133, 161–180 |
| src/thermodynamiclatticeoutput.cc | Td | 26–242, 246–784 |
| src/thermodynamicoutput.cc | Tdo | 115–168, 172–264 |
| src/tsc.cc | Tsc | 18–36 |
| src/vtkoutput.cc | Td | 28–29, 65–177, 187–241, 249–367 |
| src/wallcrossingaction.cc | Box | 14–50 |

## Not modelled at all

* src/include/smash/actionfinderfactory.h
* src/include/smash/chemicalpotential.h
* src/include/smash/chrono.h
* src/include/smash/crosssectionsbrems.h
* src/include/smash/crosssectionsphoton.h
* src/include/smash/cxx17compat.h
* src/include/smash/decayactionsfinder.h
* src/include/smash/decayactionsfinderdilepton.h
* src/include/smash/decaymodes.h
* src/include/smash/deprecate_c_functions.h
* src/include/smash/distributions.h
* src/include/smash/experimentparameters.h
* src/include/smash/fields.h
* src/include/smash/filelock.h
* src/include/smash/fluidizationaction.h
* src/include/smash/hepmcoutput.h
* src/include/smash/hypersurfacecrossingfinder.h
* src/include/smash/icparameters.h
* src/include/smash/iomanipulators.h
* src/include/smash/library.h
* src/include/smash/macros.h
* src/include/smash/modusdefault.h
* src/include/smash/oscaroutput.h
* src/include/smash/parametrizations_data.h
* src/include/smash/potential_globals.h
* src/include/smash/propagation.h
* src/include/smash/quantumsampling.h
* src/include/smash/rivetoutput.h
* src/include/smash/setup_particles_decaymodes.h
* src/include/smash/stringify.h
* src/include/smash/thermalizationaction.h
* src/include/smash/thermodynamiclatticeoutput.h
* src/include/smash/thermodynamicoutput.h
* src/include/smash/traits.h
* src/include/smash/wallcrossingaction.h
* src/potential_globals.cc
* src/thermalizationaction.cc
* src/threevector.cc
