import Verif.Model.Classes
import Verif.Model.Chars

/-!
# Docstrings of the gcode classes, written by `tools/mkclasses.py`
-/

namespace Pygcode

/-- `cls.__doc__` (gcodes.py:140-1357); `none` for `None`.  Docstrings are not inherited. -/
def Cls.doc : Cls → Option (List Char)
  | .root => none
  | .definition => none
  | .lineNumber => some (chars! "N: Line Number")
  | .programName => some (chars! "O: Program Name")
  | .motion => none
  | .rapidMove => some (chars! "G0: Rapid Move")
  | .linearMove => some (chars! "G1: Linear Move")
  | .arcMove => some (chars! "Arc Move")
  | .arcMoveCW => some (chars! "G2: Arc Move (clockwise)")
  | .arcMoveCCW => some (chars! "G3: Arc Move (counter-clockwise)")
  | .dwell => some (chars! "G4: Dwell")
  | .cublcSpline => some (chars! "G5: Cubic Spline")
  | .quadraticSpline => some (chars! "G5.1: Quadratic Spline")
  | .nurbs => some (chars! "G5.2: Non-uniform rational basis spline (NURBS)")
  | .nurbsEnd => some (chars! "G5.3: end NURBS mode")
  | .straightProbe => some (chars! "G38.2-G38.5: Straight Probe")
  | .spindleSyncMotion => some (chars! "G33: Spindle Synchronized Motion")
  | .rigidTapping => some (chars! "G33.1: Rigid Tapping")
  | .cancelCannedCycle => some (chars! "G80: Cancel Canned Cycle")
  | .cannedCycle => none
  | .drillingCycle => some (chars! "G81: Drilling Cycle")
  | .drillingCycleDwell => some (chars! "G82: Drilling Cycle, Dwell")
  | .drillingCyclePeck => some (chars! "G83: Drilling Cycle, Peck")
  | .drillingCycleChipBreaking => some (chars! "G73: Drilling Cycle, ChipBreaking")
  | .boringCycleFeedOut => some (chars! "G85: Boring Cycle, Feed Out")
  | .boringCycleDwellFeedOut => some (chars! "G89: Boring Cycle, Dwell, Feed Out")
  | .threadingCycle => some (chars! "G76: Threading Cycle")
  | .distanceMode => none
  | .absoluteDistanceMode => some (chars! "G90: Absolute Distance Mode")
  | .incrementalDistanceMode => some (chars! "G91: Incremental Distance Mode")
  | .absoluteArcDistanceMode => some (chars! "G90.1: Absolute Distance Mode for Arc IJK Parameters")
  | .incrementalArcDistanceMode => some (chars! "G91.1: Incremental Distance Mode for Arc IJK Parameters")
  | .latheDiameterMode => some (chars! "G7: Lathe Diameter Mode")
  | .latheRadiusMode => some (chars! "G8: Lathe Radius Mode")
  | .feedRateMode => none
  | .inverseTimeMode => some (chars! "G93: Inverse Time Mode")
  | .unitsPerMinuteMode => some (chars! "G94: Units Per MinuteMode")
  | .unitsPerRevolution => some (chars! "G95: Units Per Revolution")
  | .spindle => none
  | .startSpindle => some (chars! "M3,M4: Start Spindle Clockwise")
  | .startSpindleCW => some (chars! "M3: Start Spindle Clockwise")
  | .startSpindleCCW => some (chars! "M4: Start Spindle Counter-Clockwise")
  | .stopSpindle => some (chars! "M5: Stop Spindle")
  | .orientSpindle => some (chars! "M19: Orient Spindle")
  | .spindleSpeedMode => none
  | .spindleConstantSurfaceSpeedMode => some (chars! "G96: Spindle Constant Surface Speed")
  | .spindleRPMMode => some (chars! "G97: Spindle RPM Speed")
  | .coolant => none
  | .coolantMistOn => some (chars! "M7: turn mist coolant on")
  | .coolantFloodOn => some (chars! "M8: turn flood coolant on")
  | .coolantOff => some (chars! "M9: turn all coolant off")
  | .toolLength => none
  | .toolLengthOffset => some (chars! "G43: Tool Length Offset")
  | .dynamicToolLengthOffset => some (chars! "G43.1: Dynamic Tool Length Offset")
  | .addToolLengthOffset => some (chars! "G43.2: Appkly Additional Tool Length Offset")
  | .cancelToolLengthOffset => some (chars! "G49: Cancel Tool Length Compensation")
  | .programControl => none
  | .pauseProgram => some (chars! "M0: Program Pause")
  | .pauseProgramOptional => some (chars! "M1: Program Pause (optional)")
  | .endProgram => some (chars! "M2: Program End")
  | .endProgramPalletShuttle => some (chars! "M30: exchange pallet shuttles and end the program")
  | .palletChangePause => some (chars! "M60: Pallet Change Pause")
  | .unit => none
  | .useInches => some (chars! "G20: use inches for length units")
  | .useMillimeters => some (chars! "G21: use millimeters for length units")
  | .planeSelect => none
  | .selectXYPlane => some (chars! "G17: select XY plane (default)")
  | .selectZXPlane => some (chars! "G18: select ZX plane")
  | .selectYZPlane => some (chars! "G19: select YZ plane")
  | .selectUVPlane => some (chars! "G17.1: select UV plane")
  | .selectWUPlane => some (chars! "G18.1: select WU plane")
  | .selectVWPlane => some (chars! "G19.1: select VW plane")
  | .cutterRadiusComp => none
  | .cutterRadiusCompOff => some (chars! "G40: Cutter Radius Compensation Off")
  | .cutterCompLeft => some (chars! "G41: Cutter Radius Compensation (left)")
  | .cutterCompRight => some (chars! "G42: Cutter Radius Compensation (right)")
  | .dynamicCutterCompLeft => some (chars! "G41.1: Dynamic Cutter Radius Compensation (left)")
  | .dynamicCutterCompRight => some (chars! "G42.1: Dynamic Cutter Radius Compensation (right)")
  | .pathControlMode => none
  | .exactPathMode => some (chars! "G61: Exact path mode")
  | .exactStopMode => some (chars! "G61.1: Exact stop mode")
  | .pathBlendingMode => some (chars! "G64: Path Blending")
  | .cannedReturnMode => none
  | .cannedCycleReturnPrevLevel => some (chars! "G98: Canned Cycle Return to the level set prior to cycle start")
  | .cannedCycleReturnToR => some (chars! "G99: Canned Cycle Return to the level set by R")
  | .otherModal => none
  | .feedRate => some (chars! "F: Set Feed Rate")
  | .spindleSpeed => some (chars! "S: Set Spindle Speed")
  | .selectTool => some (chars! "T: Select Tool")
  | .speedAndFeedOverrideOn => some (chars! "M48: Speed and Feed Override Control On")
  | .speedAndFeedOverrideOff => some (chars! "M49: Speed and Feed Override Control Off")
  | .feedOverride => some (chars! "M50: Feed Override Control")
  | .spindleSpeedOverride => some (chars! "M51: Spindle Speed Override Control")
  | .adaptiveFeed => some (chars! "M52: Adaptive Feed Control")
  | .feedStop => some (chars! "M53: Feed Stop Control")
  | .selectCoordinateSystem => some (chars! "Select Coordinate System")
  | .selectCoordinateSystem1 => some (chars! "Select Coordinate System 1")
  | .selectCoordinateSystem2 => some (chars! "Select Coordinate System 2")
  | .selectCoordinateSystem3 => some (chars! "Select Coordinate System 3")
  | .selectCoordinateSystem4 => some (chars! "Select Coordinate System 4")
  | .selectCoordinateSystem5 => some (chars! "Select Coordinate System 5")
  | .selectCoordinateSystem6 => some (chars! "Select Coordinate System 6")
  | .selectCoordinateSystem7 => some (chars! "Select Coordinate System 7")
  | .selectCoordinateSystem8 => some (chars! "Select Coordinate System 8")
  | .selectCoordinateSystem9 => some (chars! "Select Coordinate System 9")
  | .io => none
  | .digitalOutput => some (chars! "Digital Output Control")
  | .digitalOutputOnSyncd => some (chars! "M62: turn on digital output synchronized with motion")
  | .digitalOutputOffSyncd => some (chars! "M63: turn off digital output synchronized with motion")
  | .digitalOutputOn => some (chars! "M64: turn on digital output immediately")
  | .digitalOutputOff => some (chars! "M65: turn off digital output immediately")
  | .waitOnInput => some (chars! "M66: Wait on Input")
  | .analogOutput => some (chars! "Analog Output")
  | .analogOutputSyncd => some (chars! "M67: Analog Output, Synchronized")
  | .analogOutputImmediate => some (chars! "M68: Analog Output, Immediate")
  | .nonModal => none
  | .toolChange => some (chars! "M6: Tool Change")
  | .toolSetCurrent => some (chars! "M61: Set Current Tool")
  | .setData => some (chars! "G10: Set stuff")
  | .gotoPredefinedPosition => some (chars! "G28,G30: Goto Predefined Position (rapid movement)")
  | .setPredefinedPosition => some (chars! "G28.1,G30.1: Set Predefined Position")
  | .moveInMachineCoords => some (chars! "G53: Move in Machine Coordinates")
  | .coordSystemOffset => some (chars! "G92: Coordinate System Offset")
  | .resetCoordSystemOffset => some (chars! "G92.1,G92.2: Reset Coordinate System Offset")
  | .restoreCoordSystemOffset => some (chars! "G92.3: Restore Coordinate System Offset")
  | .userDefined => some (chars! "M101-M199: User Defined Commands")

/-- The classes deriving from `GCode` in the order of their definition (gcodes.py:347-1357). -/
def Cls.source : List Cls :=
  [.definition,
   .lineNumber,
   .programName,
   .motion,
   .rapidMove,
   .linearMove,
   .arcMove,
   .arcMoveCW,
   .arcMoveCCW,
   .dwell,
   .cublcSpline,
   .quadraticSpline,
   .nurbs,
   .nurbsEnd,
   .straightProbe,
   .spindleSyncMotion,
   .rigidTapping,
   .cancelCannedCycle,
   .cannedCycle,
   .drillingCycle,
   .drillingCycleDwell,
   .drillingCyclePeck,
   .drillingCycleChipBreaking,
   .boringCycleFeedOut,
   .boringCycleDwellFeedOut,
   .threadingCycle,
   .distanceMode,
   .absoluteDistanceMode,
   .incrementalDistanceMode,
   .absoluteArcDistanceMode,
   .incrementalArcDistanceMode,
   .latheDiameterMode,
   .latheRadiusMode,
   .feedRateMode,
   .inverseTimeMode,
   .unitsPerMinuteMode,
   .unitsPerRevolution,
   .spindle,
   .startSpindle,
   .startSpindleCW,
   .startSpindleCCW,
   .stopSpindle,
   .orientSpindle,
   .spindleSpeedMode,
   .spindleConstantSurfaceSpeedMode,
   .spindleRPMMode,
   .coolant,
   .coolantMistOn,
   .coolantFloodOn,
   .coolantOff,
   .toolLength,
   .toolLengthOffset,
   .dynamicToolLengthOffset,
   .addToolLengthOffset,
   .cancelToolLengthOffset,
   .programControl,
   .pauseProgram,
   .pauseProgramOptional,
   .endProgram,
   .endProgramPalletShuttle,
   .palletChangePause,
   .unit,
   .useInches,
   .useMillimeters,
   .planeSelect,
   .selectXYPlane,
   .selectZXPlane,
   .selectYZPlane,
   .selectUVPlane,
   .selectWUPlane,
   .selectVWPlane,
   .cutterRadiusComp,
   .cutterRadiusCompOff,
   .cutterCompLeft,
   .cutterCompRight,
   .dynamicCutterCompLeft,
   .dynamicCutterCompRight,
   .pathControlMode,
   .exactPathMode,
   .exactStopMode,
   .pathBlendingMode,
   .cannedReturnMode,
   .cannedCycleReturnPrevLevel,
   .cannedCycleReturnToR,
   .otherModal,
   .feedRate,
   .spindleSpeed,
   .selectTool,
   .speedAndFeedOverrideOn,
   .speedAndFeedOverrideOff,
   .feedOverride,
   .spindleSpeedOverride,
   .adaptiveFeed,
   .feedStop,
   .selectCoordinateSystem,
   .selectCoordinateSystem1,
   .selectCoordinateSystem2,
   .selectCoordinateSystem3,
   .selectCoordinateSystem4,
   .selectCoordinateSystem5,
   .selectCoordinateSystem6,
   .selectCoordinateSystem7,
   .selectCoordinateSystem8,
   .selectCoordinateSystem9,
   .io,
   .digitalOutput,
   .digitalOutputOnSyncd,
   .digitalOutputOffSyncd,
   .digitalOutputOn,
   .digitalOutputOff,
   .waitOnInput,
   .analogOutput,
   .analogOutputSyncd,
   .analogOutputImmediate,
   .nonModal,
   .toolChange,
   .toolSetCurrent,
   .setData,
   .gotoPredefinedPosition,
   .setPredefinedPosition,
   .moveInMachineCoords,
   .coordSystemOffset,
   .resetCoordSystemOffset,
   .restoreCoordSystemOffset,
   .userDefined]

end Pygcode
