import Verif.Act.Model
import Verif.Act.Phase
import Verif.Act.Props
import Verif.Actions.Model
import Verif.Actions.Props
import Verif.Ang.Model
import Verif.Ang.Props
import Verif.Ann.Model
import Verif.Ann.Props
import Verif.Bin.Binary
import Verif.Bin.Columns
import Verif.Bin.Model
import Verif.Box.Model
import Verif.Box.Props
import Verif.Cast.Model
import Verif.Cast.Props
import Verif.Cell.Conv
import Verif.Cell.Model
import Verif.Cell.Region
import Verif.Cell.Rest
import Verif.Cg.Model
import Verif.Cg.Props
import Verif.Chem.Density
import Verif.Chem.Model
import Verif.Chem.Result
import Verif.Chem.Solver
import Verif.Clock.Model
import Verif.Clock.Props
import Verif.Coll.Custom
import Verif.Coll.Energy
import Verif.Coll.Model
import Verif.Coll.Nuc
import Verif.Coll.Start
import Verif.Coll.WoodsSaxon
import Verif.Config.Merge
import Verif.Config.Model
import Verif.Config.Sections
import Verif.Config.Take
import Verif.Config.Tree
import Verif.Cons.Model
import Verif.Cons.Props
import Verif.Dal.Model
import Verif.Dal.Props
import Verif.Decay.File
import Verif.Decay.Load
import Verif.Decay.Merge
import Verif.Decay.Model
import Verif.Deform.Model
import Verif.Deform.Place
import Verif.Deform.Setup
import Verif.Deform.Shape
import Verif.Dens.Model
import Verif.Dens.Norm
import Verif.Dens.Props
import Verif.Dens.Smear
import Verif.Dens.SmearProps
import Verif.Dens.Triangle
import Verif.Em.Brems
import Verif.Em.Dalitz
import Verif.Em.Model
import Verif.Em.Photon
import Verif.Em.Shine
import Verif.Emt.Landau
import Verif.Emt.Model
import Verif.Emt.Props
import Verif.Enums.Model
import Verif.Enums.Props
import Verif.Enums.Spec
import Verif.Eos.File
import Verif.Eos.Gas
import Verif.Eos.GasProps
import Verif.Eos.Model
import Verif.Eos.Props
import Verif.Exp.Count
import Verif.Exp.Model
import Verif.Exp.Order
import Verif.Exp.Output
import Verif.Ext.Model
import Verif.Ext.Props
import Verif.Files.Model
import Verif.Files.Props
import Verif.Fluid.Core
import Verif.Fluid.Final
import Verif.Fluid.Find
import Verif.Fluid.Model
import Verif.Fluid.Out
import Verif.Fpe.Model
import Verif.Fpe.Props
import Verif.Frag.Ends
import Verif.Frag.Flavour
import Verif.Frag.Hadron
import Verif.Frag.HadronProps
import Verif.Frag.Model
import Verif.Frag.Mom
import Verif.Frag.MomProps
import Verif.Frag.Restore
import Verif.Glue.Model
import Verif.Glue.Props
import Verif.Grid.Build
import Verif.Grid.Calls
import Verif.Grid.Model
import Verif.Grid.Periodic
import Verif.Grid.Props
import Verif.Hard.Joint
import Verif.Hard.Junc
import Verif.Hard.Model
import Verif.Hard.Props
import Verif.Hep.Model
import Verif.Hep.Props
import Verif.Icb.Model
import Verif.Icb.Props
import Verif.Ini.Model
import Verif.Ini.Moment
import Verif.Ini.Place
import Verif.Ini.Quantum
import Verif.Ini.Sphere
import Verif.Ini.Thermal
import Verif.Inter.Model
import Verif.Inter.Props
import Verif.Iss.Model
import Verif.Iss.Props
import Verif.Kin.Model
import Verif.Kin.Props
import Verif.Kin.Rot
import Verif.Lat.Geom
import Verif.Lat.GeomProps
import Verif.Lat.Model
import Verif.Lat.Props
import Verif.Lattice.Gradient
import Verif.Lattice.Iterate
import Verif.Lattice.Lemmas
import Verif.Lattice.Model
import Verif.Lattice.Props
import Verif.Log.Model
import Verif.Log.Props
import Verif.Low.Fit
import Verif.Low.Model
import Verif.Low.Smooth
import Verif.Low.Sort
import Verif.Low.Spec
import Verif.Lst.Create
import Verif.Lst.Model
import Verif.Lst.Props
import Verif.Multi.Model
import Verif.Multi.Prob
import Verif.Multi.Props
import Verif.Multi.React
import Verif.Ndh.Model
import Verif.Ndh.Props
import Verif.Par.Model
import Verif.Par.Props
import Verif.Par.Rel
import Verif.Particles.Iter
import Verif.Particles.Lemmas
import Verif.Particles.Model
import Verif.Particles.Ops
import Verif.Particles.Props
import Verif.Particles.Spec
import Verif.Pauli.Model
import Verif.Pauli.Props
import Verif.Pauli.Weights
import Verif.Pdg.Content
import Verif.Pdg.Lemmas
import Verif.Pdg.Model
import Verif.Pdg.Parse
import Verif.Pdg.Props
import Verif.Pdg.Quantum
import Verif.Pol.Model
import Verif.Pol.Props
import Verif.Pot.Coulomb
import Verif.Pot.Energy
import Verif.Pot.Model
import Verif.Pot.Mom
import Verif.Pot.Root
import Verif.Pot.Skyrme
import Verif.Pot.Update
import Verif.Pot.Vdf
import Verif.Prog.Cli
import Verif.Prog.Inp
import Verif.Prog.Model
import Verif.Prog.Out
import Verif.Quad.Model
import Verif.Quad.Props
import Verif.Rand.Bessel
import Verif.Rand.Model
import Verif.Rand.Props
import Verif.Rem.Lemmas
import Verif.Rem.Model
import Verif.Rem.Props
import Verif.Rem.Run
import Verif.Rem.Slope
import Verif.Req.Create
import Verif.Req.Model
import Verif.Req.Props
import Verif.Req.Spec
import Verif.Resc.Model
import Verif.Resc.Props
import Verif.Riv.Model
import Verif.Riv.Props
import Verif.Root.Find
import Verif.Root.Model
import Verif.Root.Props
import Verif.Root.Runs
import Verif.Route.Model
import Verif.Route.Props
import Verif.Route.Spec
import Verif.Scat.Dist
import Verif.Scat.Find
import Verif.Scat.Model
import Verif.Scat.Scaling
import Verif.Sec.Balance
import Verif.Sec.Conj
import Verif.Sec.Model
import Verif.Sec.Nuc
import Verif.Sec.Props
import Verif.Sec.Sym
import Verif.Sec.Table
import Verif.Sec.Wit
import Verif.Sha.Model
import Verif.Sha.Props
import Verif.Sha.Spec
import Verif.Soft.Model
import Verif.Soft.Props
import Verif.Spl.Model
import Verif.Spl.Props
import Verif.Str.Ends
import Verif.Str.Model
import Verif.Str.Props
import Verif.Stream.Cross
import Verif.Stream.Free
import Verif.Stream.Model
import Verif.Tab.Cache
import Verif.Tab.Interp
import Verif.Tab.Model
import Verif.Tab.Props
import Verif.Td.Event
import Verif.Td.Model
import Verif.Td.Names
import Verif.Td.Read
import Verif.Td.ReadText
import Verif.Td.Vtk
import Verif.Td.VtkNames
import Verif.Td.VtkRead
import Verif.Tdo.Model
import Verif.Tdo.Props
import Verif.Tdo.Spec
import Verif.Text.Model
import Verif.Text.Props
import Verif.ThMass.Model
import Verif.ThMass.Props
import Verif.Therm.Model
import Verif.Therm.Momenta
import Verif.Therm.Props
import Verif.Tot.Cons
import Verif.Tot.Model
import Verif.Tot.Prob
import Verif.Tot.Strings
import Verif.Tot.Sym
import Verif.Tot.Total
import Verif.Tot.Wit
import Verif.Tsc.Model
import Verif.Tsc.Props
import Verif.Types.Find
import Verif.Types.Iso
import Verif.Types.Model
import Verif.Types.Names
import Verif.Types.Props
import Verif.Wid.Bw
import Verif.Wid.Find
import Verif.Wid.Form
import Verif.Wid.Mass
import Verif.Wid.Model
import Verif.Wid.Width
import Verif.Xs.Model
import Verif.Xs.Props
import Verif.Xs.Table
