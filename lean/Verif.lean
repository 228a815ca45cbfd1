import Verif.Model.XF
import Verif.Spec
import Verif.Model.Root
import Verif.Lemmas.Root
import Verif.Props.Root
import Verif.Model.Fresnel
import Verif.Lemmas.Fresnel
import Verif.Props.Fresnel
import Verif.Props.Fresnel2
import Verif.Model.Exits
import Verif.Lemmas.Exits
import Verif.Props.Exits
import Verif.Model.Weights
import Verif.Lemmas.Weights
import Verif.Props.Weights

import Verif.Model.Geometry
import Verif.Lemmas.Geometry
import Verif.Props.Geometry
import Verif.Props.Geometry2
import Verif.Props.Geometry3
import Verif.Model.Heap
import Verif.Props.Heap
import Verif.Model.Traj
import Verif.Model.Init
import Verif.Props.Traj
import Verif.Props.Sampling
import Verif.Props.Fields
import Verif.Props.Init
import Verif.Props.Init2
import Verif.Model.Events
import Verif.Props.Events
import Verif.Props.Tir
import Verif.Model.CargilleData
import Verif.Model.Index
import Verif.Props.Index
import Verif.Props.Materials
import Verif.Props.Materials2
import Verif.Lemmas.Interp
import Verif.Props.IndexData
import Verif.Model.Structure
import Verif.Props.Structure
import Verif.Props.Structure2
import Verif.Props.Poly
import Verif.Model.SingleScat
import Verif.Lemmas.Trapz
import Verif.Props.SingleScat
import Verif.Props.SingleScat2
import Verif.Props.SingleScat3
import Verif.Model.Polarization
import Verif.Props.Polarization
import Verif.Model.Spheres
import Verif.Props.Spheres
import Verif.Props.Spheres2
import Verif.Model.Restart
import Verif.Props.Restart
import Verif.Model.CalcScat
import Verif.Props.CalcScat
import Verif.Model.Rough
import Verif.Props.Rough
import Verif.Model.Radial
import Verif.Props.Radial
import Verif.Model.Simulation
import Verif.Props.Simulation
import Verif.Props.Metamorphic
import Verif.Props.Metamorphic2
import Verif.Model.SphereRun
import Verif.Props.SphereGeo
import Verif.Props.SphereRun
import Verif.SpecFilm
import Verif.Props.Estimator
import Verif.SpecStat
import Verif.Props.Statistics
import Verif.Model.Choice
import Verif.Props.Beam
import Verif.Props.AngleLaw
import Verif.Props.Persistence
import Verif.Props.MeanDepth
import Verif.SpecSphere
import Verif.Props.SphereEstimator
import Verif.Props.Ballistic
import Verif.Props.StrongLaw
import Verif.Model.Bulk
import Verif.Props.Bulk
import Verif.Model.Fft
import Verif.Props.Fft
import Verif.Model.Absorption
import Verif.Props.Absorption
import Verif.Props.DirectionLaw
import Verif.Model.Deprecated
import Verif.Props.Deprecated
import Verif.Model.ComplexFresnel
import Verif.Props.ComplexFresnel
import Verif.Model.Reflection
import Verif.Props.Reflection
import Verif.Model.Plots
import Verif.Props.Plots
import Verif.Props.Diffusion
import Verif.Props.Oblique
import Verif.Lemmas.Walk
import Verif.Props.Escape
import Verif.Props.Settle
import Verif.Lemmas.Riemann
import Verif.Props.Limit
import Verif.Props.FineGrid
import Verif.Props.Spheres3
import Verif.Props.Transport
import Verif.Model.Units
import Verif.Lemmas.UnitScale
import Verif.Props.Units
import Verif.Props.Units2
import Verif.Props.Units3
import Verif.Props.Units4
import Verif.Props.Metamorphic3
import Verif.Props.Nominal
import Verif.Props.Consistency
import Verif.SpecDetector
import Verif.Props.Acceptance
import Verif.Props.Goniometer
import Verif.Model.PlotsSphere
import Verif.Props.PlotsSphere
import Verif.Props.ManyEvents
import Verif.Model.SphereGonio
import Verif.Props.SphereGonio
import Verif.Props.ErrorBound
import Verif.Props.Batches
import Verif.Props.BatchesFilm
import Verif.Lemmas.Measurable
import Verif.Props.SphereStat
import Verif.Props.RadialGeneric
import Verif.Props.SphereEvents
import Verif.Props.SphereAbsorption
import Verif.Props.Thickness
import Verif.Props.ClearFilm
import Verif.Props.Mirror
import Verif.Model.Haze
import Verif.Props.Haze
import Verif.Props.Fraction
import Verif.Props.ClearSphere
import Verif.Props.TransparentFilm
import Verif.Props.PlotCoord
import Verif.Props.Rng
import Verif.Props.Runs
import Verif.Props.SphereRng
import Verif.Props.SphereRuns
import Verif.Props.ThetaEvents
import Verif.Props.Incoherent
