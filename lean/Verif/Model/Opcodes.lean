import Verif.Go.Basic
/-!
# script/Opcodes.go

Generated from the source text: one Lean definition per Go constant, and the two tables entry by entry, in source order.
-/
namespace Verif.Op

/-- script/Opcodes.go:6 -/
def Op0 : UInt8 := 0x00
/-- script/Opcodes.go:7 -/
def OpZERO : UInt8 := 0x00
/-- script/Opcodes.go:8 -/
def OpFALSE : UInt8 := 0x00
/-- script/Opcodes.go:9 -/
def OpDATA1 : UInt8 := 0x01
/-- script/Opcodes.go:10 -/
def OpDATA2 : UInt8 := 0x02
/-- script/Opcodes.go:11 -/
def OpDATA3 : UInt8 := 0x03
/-- script/Opcodes.go:12 -/
def OpDATA4 : UInt8 := 0x04
/-- script/Opcodes.go:13 -/
def OpDATA5 : UInt8 := 0x05
/-- script/Opcodes.go:14 -/
def OpDATA6 : UInt8 := 0x06
/-- script/Opcodes.go:15 -/
def OpDATA7 : UInt8 := 0x07
/-- script/Opcodes.go:16 -/
def OpDATA8 : UInt8 := 0x08
/-- script/Opcodes.go:17 -/
def OpDATA9 : UInt8 := 0x09
/-- script/Opcodes.go:18 -/
def OpDATA10 : UInt8 := 0x0a
/-- script/Opcodes.go:19 -/
def OpDATA11 : UInt8 := 0x0b
/-- script/Opcodes.go:20 -/
def OpDATA12 : UInt8 := 0x0c
/-- script/Opcodes.go:21 -/
def OpDATA13 : UInt8 := 0x0d
/-- script/Opcodes.go:22 -/
def OpDATA14 : UInt8 := 0x0e
/-- script/Opcodes.go:23 -/
def OpDATA15 : UInt8 := 0x0f
/-- script/Opcodes.go:24 -/
def OpDATA16 : UInt8 := 0x10
/-- script/Opcodes.go:25 -/
def OpDATA17 : UInt8 := 0x11
/-- script/Opcodes.go:26 -/
def OpDATA18 : UInt8 := 0x12
/-- script/Opcodes.go:27 -/
def OpDATA19 : UInt8 := 0x13
/-- script/Opcodes.go:28 -/
def OpDATA20 : UInt8 := 0x14
/-- script/Opcodes.go:29 -/
def OpDATA21 : UInt8 := 0x15
/-- script/Opcodes.go:30 -/
def OpDATA22 : UInt8 := 0x16
/-- script/Opcodes.go:31 -/
def OpDATA23 : UInt8 := 0x17
/-- script/Opcodes.go:32 -/
def OpDATA24 : UInt8 := 0x18
/-- script/Opcodes.go:33 -/
def OpDATA25 : UInt8 := 0x19
/-- script/Opcodes.go:34 -/
def OpDATA26 : UInt8 := 0x1a
/-- script/Opcodes.go:35 -/
def OpDATA27 : UInt8 := 0x1b
/-- script/Opcodes.go:36 -/
def OpDATA28 : UInt8 := 0x1c
/-- script/Opcodes.go:37 -/
def OpDATA29 : UInt8 := 0x1d
/-- script/Opcodes.go:38 -/
def OpDATA30 : UInt8 := 0x1e
/-- script/Opcodes.go:39 -/
def OpDATA31 : UInt8 := 0x1f
/-- script/Opcodes.go:40 -/
def OpDATA32 : UInt8 := 0x20
/-- script/Opcodes.go:41 -/
def OpDATA33 : UInt8 := 0x21
/-- script/Opcodes.go:42 -/
def OpDATA34 : UInt8 := 0x22
/-- script/Opcodes.go:43 -/
def OpDATA35 : UInt8 := 0x23
/-- script/Opcodes.go:44 -/
def OpDATA36 : UInt8 := 0x24
/-- script/Opcodes.go:45 -/
def OpDATA37 : UInt8 := 0x25
/-- script/Opcodes.go:46 -/
def OpDATA38 : UInt8 := 0x26
/-- script/Opcodes.go:47 -/
def OpDATA39 : UInt8 := 0x27
/-- script/Opcodes.go:48 -/
def OpDATA40 : UInt8 := 0x28
/-- script/Opcodes.go:49 -/
def OpDATA41 : UInt8 := 0x29
/-- script/Opcodes.go:50 -/
def OpDATA42 : UInt8 := 0x2a
/-- script/Opcodes.go:51 -/
def OpDATA43 : UInt8 := 0x2b
/-- script/Opcodes.go:52 -/
def OpDATA44 : UInt8 := 0x2c
/-- script/Opcodes.go:53 -/
def OpDATA45 : UInt8 := 0x2d
/-- script/Opcodes.go:54 -/
def OpDATA46 : UInt8 := 0x2e
/-- script/Opcodes.go:55 -/
def OpDATA47 : UInt8 := 0x2f
/-- script/Opcodes.go:56 -/
def OpDATA48 : UInt8 := 0x30
/-- script/Opcodes.go:57 -/
def OpDATA49 : UInt8 := 0x31
/-- script/Opcodes.go:58 -/
def OpDATA50 : UInt8 := 0x32
/-- script/Opcodes.go:59 -/
def OpDATA51 : UInt8 := 0x33
/-- script/Opcodes.go:60 -/
def OpDATA52 : UInt8 := 0x34
/-- script/Opcodes.go:61 -/
def OpDATA53 : UInt8 := 0x35
/-- script/Opcodes.go:62 -/
def OpDATA54 : UInt8 := 0x36
/-- script/Opcodes.go:63 -/
def OpDATA55 : UInt8 := 0x37
/-- script/Opcodes.go:64 -/
def OpDATA56 : UInt8 := 0x38
/-- script/Opcodes.go:65 -/
def OpDATA57 : UInt8 := 0x39
/-- script/Opcodes.go:66 -/
def OpDATA58 : UInt8 := 0x3a
/-- script/Opcodes.go:67 -/
def OpDATA59 : UInt8 := 0x3b
/-- script/Opcodes.go:68 -/
def OpDATA60 : UInt8 := 0x3c
/-- script/Opcodes.go:69 -/
def OpDATA61 : UInt8 := 0x3d
/-- script/Opcodes.go:70 -/
def OpDATA62 : UInt8 := 0x3e
/-- script/Opcodes.go:71 -/
def OpDATA63 : UInt8 := 0x3f
/-- script/Opcodes.go:72 -/
def OpDATA64 : UInt8 := 0x40
/-- script/Opcodes.go:73 -/
def OpDATA65 : UInt8 := 0x41
/-- script/Opcodes.go:74 -/
def OpDATA66 : UInt8 := 0x42
/-- script/Opcodes.go:75 -/
def OpDATA67 : UInt8 := 0x43
/-- script/Opcodes.go:76 -/
def OpDATA68 : UInt8 := 0x44
/-- script/Opcodes.go:77 -/
def OpDATA69 : UInt8 := 0x45
/-- script/Opcodes.go:78 -/
def OpDATA70 : UInt8 := 0x46
/-- script/Opcodes.go:79 -/
def OpDATA71 : UInt8 := 0x47
/-- script/Opcodes.go:80 -/
def OpDATA72 : UInt8 := 0x48
/-- script/Opcodes.go:81 -/
def OpDATA73 : UInt8 := 0x49
/-- script/Opcodes.go:82 -/
def OpDATA74 : UInt8 := 0x4a
/-- script/Opcodes.go:83 -/
def OpDATA75 : UInt8 := 0x4b
/-- script/Opcodes.go:84 -/
def OpPUSHDATA1 : UInt8 := 0x4c
/-- script/Opcodes.go:85 -/
def OpPUSHDATA2 : UInt8 := 0x4d
/-- script/Opcodes.go:86 -/
def OpPUSHDATA4 : UInt8 := 0x4e
/-- script/Opcodes.go:87 -/
def Op1NEGATE : UInt8 := 0x4f
/-- script/Opcodes.go:88 -/
def OpRESERVED : UInt8 := 0x50
/-- script/Opcodes.go:89 -/
def OpBASE : UInt8 := 0x50
/-- script/Opcodes.go:90 -/
def Op1 : UInt8 := 0x51
/-- script/Opcodes.go:91 -/
def OpONE : UInt8 := 0x51
/-- script/Opcodes.go:92 -/
def OpTRUE : UInt8 := 0x51
/-- script/Opcodes.go:93 -/
def Op2 : UInt8 := 0x52
/-- script/Opcodes.go:94 -/
def Op3 : UInt8 := 0x53
/-- script/Opcodes.go:95 -/
def Op4 : UInt8 := 0x54
/-- script/Opcodes.go:96 -/
def Op5 : UInt8 := 0x55
/-- script/Opcodes.go:97 -/
def Op6 : UInt8 := 0x56
/-- script/Opcodes.go:98 -/
def Op7 : UInt8 := 0x57
/-- script/Opcodes.go:99 -/
def Op8 : UInt8 := 0x58
/-- script/Opcodes.go:100 -/
def Op9 : UInt8 := 0x59
/-- script/Opcodes.go:101 -/
def Op10 : UInt8 := 0x5a
/-- script/Opcodes.go:102 -/
def Op11 : UInt8 := 0x5b
/-- script/Opcodes.go:103 -/
def Op12 : UInt8 := 0x5c
/-- script/Opcodes.go:104 -/
def Op13 : UInt8 := 0x5d
/-- script/Opcodes.go:105 -/
def Op14 : UInt8 := 0x5e
/-- script/Opcodes.go:106 -/
def Op15 : UInt8 := 0x5f
/-- script/Opcodes.go:107 -/
def Op16 : UInt8 := 0x60
/-- script/Opcodes.go:108 -/
def OpNOP : UInt8 := 0x61
/-- script/Opcodes.go:109 -/
def OpVER : UInt8 := 0x62
/-- script/Opcodes.go:110 -/
def OpIF : UInt8 := 0x63
/-- script/Opcodes.go:111 -/
def OpNOTIF : UInt8 := 0x64
/-- script/Opcodes.go:112 -/
def OpVERIF : UInt8 := 0x65
/-- script/Opcodes.go:113 -/
def OpVERNOTIF : UInt8 := 0x66
/-- script/Opcodes.go:114 -/
def OpELSE : UInt8 := 0x67
/-- script/Opcodes.go:115 -/
def OpENDIF : UInt8 := 0x68
/-- script/Opcodes.go:116 -/
def OpVERIFY : UInt8 := 0x69
/-- script/Opcodes.go:117 -/
def OpRETURN : UInt8 := 0x6a
/-- script/Opcodes.go:118 -/
def OpTOALTSTACK : UInt8 := 0x6b
/-- script/Opcodes.go:119 -/
def OpFROMALTSTACK : UInt8 := 0x6c
/-- script/Opcodes.go:120 -/
def Op2DROP : UInt8 := 0x6d
/-- script/Opcodes.go:121 -/
def Op2DUP : UInt8 := 0x6e
/-- script/Opcodes.go:122 -/
def Op3DUP : UInt8 := 0x6f
/-- script/Opcodes.go:123 -/
def Op2OVER : UInt8 := 0x70
/-- script/Opcodes.go:124 -/
def Op2ROT : UInt8 := 0x71
/-- script/Opcodes.go:125 -/
def Op2SWAP : UInt8 := 0x72
/-- script/Opcodes.go:126 -/
def OpIFDUP : UInt8 := 0x73
/-- script/Opcodes.go:127 -/
def OpDEPTH : UInt8 := 0x74
/-- script/Opcodes.go:128 -/
def OpDROP : UInt8 := 0x75
/-- script/Opcodes.go:129 -/
def OpDUP : UInt8 := 0x76
/-- script/Opcodes.go:130 -/
def OpNIP : UInt8 := 0x77
/-- script/Opcodes.go:131 -/
def OpOVER : UInt8 := 0x78
/-- script/Opcodes.go:132 -/
def OpPICK : UInt8 := 0x79
/-- script/Opcodes.go:133 -/
def OpROLL : UInt8 := 0x7a
/-- script/Opcodes.go:134 -/
def OpROT : UInt8 := 0x7b
/-- script/Opcodes.go:135 -/
def OpSWAP : UInt8 := 0x7c
/-- script/Opcodes.go:136 -/
def OpTUCK : UInt8 := 0x7d
/-- script/Opcodes.go:137 -/
def OpCAT : UInt8 := 0x7e
/-- script/Opcodes.go:138 -/
def OpSPLIT : UInt8 := 0x7f
/-- script/Opcodes.go:139 -/
def OpNUM2BIN : UInt8 := 0x80
/-- script/Opcodes.go:140 -/
def OpBIN2NUM : UInt8 := 0x81
/-- script/Opcodes.go:141 -/
def OpSIZE : UInt8 := 0x82
/-- script/Opcodes.go:142 -/
def OpINVERT : UInt8 := 0x83
/-- script/Opcodes.go:143 -/
def OpAND : UInt8 := 0x84
/-- script/Opcodes.go:144 -/
def OpOR : UInt8 := 0x85
/-- script/Opcodes.go:145 -/
def OpXOR : UInt8 := 0x86
/-- script/Opcodes.go:146 -/
def OpEQUAL : UInt8 := 0x87
/-- script/Opcodes.go:147 -/
def OpEQUALVERIFY : UInt8 := 0x88
/-- script/Opcodes.go:148 -/
def OpRESERVED1 : UInt8 := 0x89
/-- script/Opcodes.go:149 -/
def OpRESERVED2 : UInt8 := 0x8a
/-- script/Opcodes.go:150 -/
def Op1ADD : UInt8 := 0x8b
/-- script/Opcodes.go:151 -/
def Op1SUB : UInt8 := 0x8c
/-- script/Opcodes.go:152 -/
def Op2MUL : UInt8 := 0x8d
/-- script/Opcodes.go:153 -/
def Op2DIV : UInt8 := 0x8e
/-- script/Opcodes.go:154 -/
def OpNEGATE : UInt8 := 0x8f
/-- script/Opcodes.go:155 -/
def OpABS : UInt8 := 0x90
/-- script/Opcodes.go:156 -/
def OpNOT : UInt8 := 0x91
/-- script/Opcodes.go:157 -/
def Op0NOTEQUAL : UInt8 := 0x92
/-- script/Opcodes.go:158 -/
def OpADD : UInt8 := 0x93
/-- script/Opcodes.go:159 -/
def OpSUB : UInt8 := 0x94
/-- script/Opcodes.go:160 -/
def OpMUL : UInt8 := 0x95
/-- script/Opcodes.go:161 -/
def OpDIV : UInt8 := 0x96
/-- script/Opcodes.go:162 -/
def OpMOD : UInt8 := 0x97
/-- script/Opcodes.go:163 -/
def OpLSHIFT : UInt8 := 0x98
/-- script/Opcodes.go:164 -/
def OpRSHIFT : UInt8 := 0x99
/-- script/Opcodes.go:165 -/
def OpBOOLAND : UInt8 := 0x9a
/-- script/Opcodes.go:166 -/
def OpBOOLOR : UInt8 := 0x9b
/-- script/Opcodes.go:167 -/
def OpNUMEQUAL : UInt8 := 0x9c
/-- script/Opcodes.go:168 -/
def OpNUMEQUALVERIFY : UInt8 := 0x9d
/-- script/Opcodes.go:169 -/
def OpNUMNOTEQUAL : UInt8 := 0x9e
/-- script/Opcodes.go:170 -/
def OpLESSTHAN : UInt8 := 0x9f
/-- script/Opcodes.go:171 -/
def OpGREATERTHAN : UInt8 := 0xa0
/-- script/Opcodes.go:172 -/
def OpLESSTHANOREQUAL : UInt8 := 0xa1
/-- script/Opcodes.go:173 -/
def OpGREATERTHANOREQUAL : UInt8 := 0xa2
/-- script/Opcodes.go:174 -/
def OpMIN : UInt8 := 0xa3
/-- script/Opcodes.go:175 -/
def OpMAX : UInt8 := 0xa4
/-- script/Opcodes.go:176 -/
def OpWITHIN : UInt8 := 0xa5
/-- script/Opcodes.go:177 -/
def OpRIPEMD160 : UInt8 := 0xa6
/-- script/Opcodes.go:178 -/
def OpSHA1 : UInt8 := 0xa7
/-- script/Opcodes.go:179 -/
def OpSHA256 : UInt8 := 0xa8
/-- script/Opcodes.go:180 -/
def OpHASH160 : UInt8 := 0xa9
/-- script/Opcodes.go:181 -/
def OpHASH256 : UInt8 := 0xaa
/-- script/Opcodes.go:182 -/
def OpCODESEPARATOR : UInt8 := 0xab
/-- script/Opcodes.go:183 -/
def OpCHECKSIG : UInt8 := 0xac
/-- script/Opcodes.go:184 -/
def OpCHECKSIGVERIFY : UInt8 := 0xad
/-- script/Opcodes.go:185 -/
def OpCHECKMULTISIG : UInt8 := 0xae
/-- script/Opcodes.go:186 -/
def OpCHECKMULTISIGVERIFY : UInt8 := 0xaf
/-- script/Opcodes.go:187 -/
def OpNOP1 : UInt8 := 0xb0
/-- script/Opcodes.go:188 -/
def OpNOP2 : UInt8 := 0xb1
/-- script/Opcodes.go:189 -/
def OpNOP3 : UInt8 := 0xb2
/-- script/Opcodes.go:190 -/
def OpNOP4 : UInt8 := 0xb3
/-- script/Opcodes.go:191 -/
def OpNOP5 : UInt8 := 0xb4
/-- script/Opcodes.go:192 -/
def OpNOP6 : UInt8 := 0xb5
/-- script/Opcodes.go:193 -/
def OpNOP7 : UInt8 := 0xb6
/-- script/Opcodes.go:194 -/
def OpNOP8 : UInt8 := 0xb7
/-- script/Opcodes.go:195 -/
def OpNOP9 : UInt8 := 0xb8
/-- script/Opcodes.go:196 -/
def OpNOP10 : UInt8 := 0xb9
/-- script/Opcodes.go:197 -/
def OpUNKNOWN186 : UInt8 := 0xba
/-- script/Opcodes.go:198 -/
def OpUNKNOWN187 : UInt8 := 0xbb
/-- script/Opcodes.go:199 -/
def OpUNKNOWN188 : UInt8 := 0xbc
/-- script/Opcodes.go:200 -/
def OpUNKNOWN189 : UInt8 := 0xbd
/-- script/Opcodes.go:201 -/
def OpUNKNOWN190 : UInt8 := 0xbe
/-- script/Opcodes.go:202 -/
def OpUNKNOWN191 : UInt8 := 0xbf
/-- script/Opcodes.go:203 -/
def OpUNKNOWN192 : UInt8 := 0xc0
/-- script/Opcodes.go:204 -/
def OpUNKNOWN193 : UInt8 := 0xc1
/-- script/Opcodes.go:205 -/
def OpUNKNOWN194 : UInt8 := 0xc2
/-- script/Opcodes.go:206 -/
def OpUNKNOWN195 : UInt8 := 0xc3
/-- script/Opcodes.go:207 -/
def OpUNKNOWN196 : UInt8 := 0xc4
/-- script/Opcodes.go:208 -/
def OpUNKNOWN197 : UInt8 := 0xc5
/-- script/Opcodes.go:209 -/
def OpUNKNOWN198 : UInt8 := 0xc6
/-- script/Opcodes.go:210 -/
def OpUNKNOWN199 : UInt8 := 0xc7
/-- script/Opcodes.go:211 -/
def OpUNKNOWN200 : UInt8 := 0xc8
/-- script/Opcodes.go:212 -/
def OpUNKNOWN201 : UInt8 := 0xc9
/-- script/Opcodes.go:213 -/
def OpUNKNOWN202 : UInt8 := 0xca
/-- script/Opcodes.go:214 -/
def OpUNKNOWN203 : UInt8 := 0xcb
/-- script/Opcodes.go:215 -/
def OpUNKNOWN204 : UInt8 := 0xcc
/-- script/Opcodes.go:216 -/
def OpUNKNOWN205 : UInt8 := 0xcd
/-- script/Opcodes.go:217 -/
def OpUNKNOWN206 : UInt8 := 0xce
/-- script/Opcodes.go:218 -/
def OpUNKNOWN207 : UInt8 := 0xcf
/-- script/Opcodes.go:219 -/
def OpUNKNOWN208 : UInt8 := 0xd0
/-- script/Opcodes.go:220 -/
def OpUNKNOWN209 : UInt8 := 0xd1
/-- script/Opcodes.go:221 -/
def OpUNKNOWN210 : UInt8 := 0xd2
/-- script/Opcodes.go:222 -/
def OpUNKNOWN211 : UInt8 := 0xd3
/-- script/Opcodes.go:223 -/
def OpUNKNOWN212 : UInt8 := 0xd4
/-- script/Opcodes.go:224 -/
def OpUNKNOWN213 : UInt8 := 0xd5
/-- script/Opcodes.go:225 -/
def OpUNKNOWN214 : UInt8 := 0xd6
/-- script/Opcodes.go:226 -/
def OpUNKNOWN215 : UInt8 := 0xd7
/-- script/Opcodes.go:227 -/
def OpUNKNOWN216 : UInt8 := 0xd8
/-- script/Opcodes.go:228 -/
def OpUNKNOWN217 : UInt8 := 0xd9
/-- script/Opcodes.go:229 -/
def OpUNKNOWN218 : UInt8 := 0xda
/-- script/Opcodes.go:230 -/
def OpUNKNOWN219 : UInt8 := 0xdb
/-- script/Opcodes.go:231 -/
def OpUNKNOWN220 : UInt8 := 0xdc
/-- script/Opcodes.go:232 -/
def OpUNKNOWN221 : UInt8 := 0xdd
/-- script/Opcodes.go:233 -/
def OpUNKNOWN222 : UInt8 := 0xde
/-- script/Opcodes.go:234 -/
def OpUNKNOWN223 : UInt8 := 0xdf
/-- script/Opcodes.go:235 -/
def OpUNKNOWN224 : UInt8 := 0xe0
/-- script/Opcodes.go:236 -/
def OpUNKNOWN225 : UInt8 := 0xe1
/-- script/Opcodes.go:237 -/
def OpUNKNOWN226 : UInt8 := 0xe2
/-- script/Opcodes.go:238 -/
def OpUNKNOWN227 : UInt8 := 0xe3
/-- script/Opcodes.go:239 -/
def OpUNKNOWN228 : UInt8 := 0xe4
/-- script/Opcodes.go:240 -/
def OpUNKNOWN229 : UInt8 := 0xe5
/-- script/Opcodes.go:241 -/
def OpUNKNOWN230 : UInt8 := 0xe6
/-- script/Opcodes.go:242 -/
def OpUNKNOWN231 : UInt8 := 0xe7
/-- script/Opcodes.go:243 -/
def OpUNKNOWN232 : UInt8 := 0xe8
/-- script/Opcodes.go:244 -/
def OpUNKNOWN233 : UInt8 := 0xe9
/-- script/Opcodes.go:245 -/
def OpUNKNOWN234 : UInt8 := 0xea
/-- script/Opcodes.go:246 -/
def OpUNKNOWN235 : UInt8 := 0xeb
/-- script/Opcodes.go:247 -/
def OpUNKNOWN236 : UInt8 := 0xec
/-- script/Opcodes.go:248 -/
def OpUNKNOWN237 : UInt8 := 0xed
/-- script/Opcodes.go:249 -/
def OpUNKNOWN238 : UInt8 := 0xee
/-- script/Opcodes.go:250 -/
def OpUNKNOWN239 : UInt8 := 0xef
/-- script/Opcodes.go:251 -/
def OpUNKNOWN240 : UInt8 := 0xf0
/-- script/Opcodes.go:252 -/
def OpUNKNOWN241 : UInt8 := 0xf1
/-- script/Opcodes.go:253 -/
def OpUNKNOWN242 : UInt8 := 0xf2
/-- script/Opcodes.go:254 -/
def OpUNKNOWN243 : UInt8 := 0xf3
/-- script/Opcodes.go:255 -/
def OpUNKNOWN244 : UInt8 := 0xf4
/-- script/Opcodes.go:256 -/
def OpUNKNOWN245 : UInt8 := 0xf5
/-- script/Opcodes.go:257 -/
def OpUNKNOWN246 : UInt8 := 0xf6
/-- script/Opcodes.go:258 -/
def OpUNKNOWN247 : UInt8 := 0xf7
/-- script/Opcodes.go:259 -/
def OpUNKNOWN248 : UInt8 := 0xf8
/-- script/Opcodes.go:260 -/
def OpUNKNOWN249 : UInt8 := 0xf9
/-- script/Opcodes.go:261 -/
def OpSMALLINTEGER : UInt8 := 0xfa
/-- script/Opcodes.go:262 -/
def OpPUBKEYS : UInt8 := 0xfb
/-- script/Opcodes.go:263 -/
def OpUNKNOWN252 : UInt8 := 0xfc
/-- script/Opcodes.go:264 -/
def OpPUBKEYHASH : UInt8 := 0xfd
/-- script/Opcodes.go:265 -/
def OpPUBKEY : UInt8 := 0xfe
/-- script/Opcodes.go:266 -/
def OpINVALIDOPCODE : UInt8 := 0xff

/-- script/Opcodes.go:269-531 `opCodeStrings` (a Go map; keys are distinct, Go rejects duplicate constant keys) -/
def opCodeStrings : List (Bytes × UInt8) := [
  (b!"OP_0", Op0),
  (b!"OP_ZERO", OpZERO),
  (b!"OP_FALSE", OpFALSE),
  (b!"OP_DATA_1", OpDATA1),
  (b!"OP_DATA_2", OpDATA2),
  (b!"OP_DATA_3", OpDATA3),
  (b!"OP_DATA_4", OpDATA4),
  (b!"OP_DATA_5", OpDATA5),
  (b!"OP_DATA_6", OpDATA6),
  (b!"OP_DATA_7", OpDATA7),
  (b!"OP_DATA_8", OpDATA8),
  (b!"OP_DATA_9", OpDATA9),
  (b!"OP_DATA_10", OpDATA10),
  (b!"OP_DATA_11", OpDATA11),
  (b!"OP_DATA_12", OpDATA12),
  (b!"OP_DATA_13", OpDATA13),
  (b!"OP_DATA_14", OpDATA14),
  (b!"OP_DATA_15", OpDATA15),
  (b!"OP_DATA_16", OpDATA16),
  (b!"OP_DATA_17", OpDATA17),
  (b!"OP_DATA_18", OpDATA18),
  (b!"OP_DATA_19", OpDATA19),
  (b!"OP_DATA_20", OpDATA20),
  (b!"OP_DATA_21", OpDATA21),
  (b!"OP_DATA_22", OpDATA22),
  (b!"OP_DATA_23", OpDATA23),
  (b!"OP_DATA_24", OpDATA24),
  (b!"OP_DATA_25", OpDATA25),
  (b!"OP_DATA_26", OpDATA26),
  (b!"OP_DATA_27", OpDATA27),
  (b!"OP_DATA_28", OpDATA28),
  (b!"OP_DATA_29", OpDATA29),
  (b!"OP_DATA_30", OpDATA30),
  (b!"OP_DATA_31", OpDATA31),
  (b!"OP_DATA_32", OpDATA32),
  (b!"OP_DATA_33", OpDATA33),
  (b!"OP_DATA_34", OpDATA34),
  (b!"OP_DATA_35", OpDATA35),
  (b!"OP_DATA_36", OpDATA36),
  (b!"OP_DATA_37", OpDATA37),
  (b!"OP_DATA_38", OpDATA38),
  (b!"OP_DATA_39", OpDATA39),
  (b!"OP_DATA_40", OpDATA40),
  (b!"OP_DATA_41", OpDATA41),
  (b!"OP_DATA_42", OpDATA42),
  (b!"OP_DATA_43", OpDATA43),
  (b!"OP_DATA_44", OpDATA44),
  (b!"OP_DATA_45", OpDATA45),
  (b!"OP_DATA_46", OpDATA46),
  (b!"OP_DATA_47", OpDATA47),
  (b!"OP_DATA_48", OpDATA48),
  (b!"OP_DATA_49", OpDATA49),
  (b!"OP_DATA_50", OpDATA50),
  (b!"OP_DATA_51", OpDATA51),
  (b!"OP_DATA_52", OpDATA52),
  (b!"OP_DATA_53", OpDATA53),
  (b!"OP_DATA_54", OpDATA54),
  (b!"OP_DATA_55", OpDATA55),
  (b!"OP_DATA_56", OpDATA56),
  (b!"OP_DATA_57", OpDATA57),
  (b!"OP_DATA_58", OpDATA58),
  (b!"OP_DATA_59", OpDATA59),
  (b!"OP_DATA_60", OpDATA60),
  (b!"OP_DATA_61", OpDATA61),
  (b!"OP_DATA_62", OpDATA62),
  (b!"OP_DATA_63", OpDATA63),
  (b!"OP_DATA_64", OpDATA64),
  (b!"OP_DATA_65", OpDATA65),
  (b!"OP_DATA_66", OpDATA66),
  (b!"OP_DATA_67", OpDATA67),
  (b!"OP_DATA_68", OpDATA68),
  (b!"OP_DATA_69", OpDATA69),
  (b!"OP_DATA_70", OpDATA70),
  (b!"OP_DATA_71", OpDATA71),
  (b!"OP_DATA_72", OpDATA72),
  (b!"OP_DATA_73", OpDATA73),
  (b!"OP_DATA_74", OpDATA74),
  (b!"OP_DATA_75", OpDATA75),
  (b!"OP_PUSHDATA1", OpPUSHDATA1),
  (b!"OP_PUSHDATA2", OpPUSHDATA2),
  (b!"OP_PUSHDATA4", OpPUSHDATA4),
  (b!"OP_1NEGATE", Op1NEGATE),
  (b!"OP_RESERVED", OpRESERVED),
  (b!"OP_BASE", OpBASE),
  (b!"OP_1", Op1),
  (b!"OP_ONE", OpONE),
  (b!"OP_TRUE", OpTRUE),
  (b!"OP_2", Op2),
  (b!"OP_3", Op3),
  (b!"OP_4", Op4),
  (b!"OP_5", Op5),
  (b!"OP_6", Op6),
  (b!"OP_7", Op7),
  (b!"OP_8", Op8),
  (b!"OP_9", Op9),
  (b!"OP_10", Op10),
  (b!"OP_11", Op11),
  (b!"OP_12", Op12),
  (b!"OP_13", Op13),
  (b!"OP_14", Op14),
  (b!"OP_15", Op15),
  (b!"OP_16", Op16),
  (b!"OP_NOP", OpNOP),
  (b!"OP_VER", OpVER),
  (b!"OP_IF", OpIF),
  (b!"OP_NOTIF", OpNOTIF),
  (b!"OP_VERIF", OpVERIF),
  (b!"OP_VERNOTIF", OpVERNOTIF),
  (b!"OP_ELSE", OpELSE),
  (b!"OP_ENDIF", OpENDIF),
  (b!"OP_VERIFY", OpVERIFY),
  (b!"OP_RETURN", OpRETURN),
  (b!"OP_TOALTSTACK", OpTOALTSTACK),
  (b!"OP_FROMALTSTACK", OpFROMALTSTACK),
  (b!"OP_2DROP", Op2DROP),
  (b!"OP_2DUP", Op2DUP),
  (b!"OP_3DUP", Op3DUP),
  (b!"OP_2OVER", Op2OVER),
  (b!"OP_2ROT", Op2ROT),
  (b!"OP_2SWAP", Op2SWAP),
  (b!"OP_IFDUP", OpIFDUP),
  (b!"OP_DEPTH", OpDEPTH),
  (b!"OP_DROP", OpDROP),
  (b!"OP_DUP", OpDUP),
  (b!"OP_NIP", OpNIP),
  (b!"OP_OVER", OpOVER),
  (b!"OP_PICK", OpPICK),
  (b!"OP_ROLL", OpROLL),
  (b!"OP_ROT", OpROT),
  (b!"OP_SWAP", OpSWAP),
  (b!"OP_TUCK", OpTUCK),
  (b!"OP_CAT", OpCAT),
  (b!"OP_SPLIT", OpSPLIT),
  (b!"OP_NUM2BIN", OpNUM2BIN),
  (b!"OP_BIN2NUM", OpBIN2NUM),
  (b!"OP_SIZE", OpSIZE),
  (b!"OP_INVERT", OpINVERT),
  (b!"OP_AND", OpAND),
  (b!"OP_OR", OpOR),
  (b!"OP_XOR", OpXOR),
  (b!"OP_EQUAL", OpEQUAL),
  (b!"OP_EQUALVERIFY", OpEQUALVERIFY),
  (b!"OP_RESERVED1", OpRESERVED1),
  (b!"OP_RESERVED2", OpRESERVED2),
  (b!"OP_1ADD", Op1ADD),
  (b!"OP_1SUB", Op1SUB),
  (b!"OP_2MUL", Op2MUL),
  (b!"OP_2DIV", Op2DIV),
  (b!"OP_NEGATE", OpNEGATE),
  (b!"OP_ABS", OpABS),
  (b!"OP_NOT", OpNOT),
  (b!"OP_0NOTEQUAL", Op0NOTEQUAL),
  (b!"OP_ADD", OpADD),
  (b!"OP_SUB", OpSUB),
  (b!"OP_MUL", OpMUL),
  (b!"OP_DIV", OpDIV),
  (b!"OP_MOD", OpMOD),
  (b!"OP_LSHIFT", OpLSHIFT),
  (b!"OP_RSHIFT", OpRSHIFT),
  (b!"OP_BOOLAND", OpBOOLAND),
  (b!"OP_BOOLOR", OpBOOLOR),
  (b!"OP_NUMEQUAL", OpNUMEQUAL),
  (b!"OP_NUMEQUALVERIFY", OpNUMEQUALVERIFY),
  (b!"OP_NUMNOTEQUAL", OpNUMNOTEQUAL),
  (b!"OP_LESSTHAN", OpLESSTHAN),
  (b!"OP_GREATERTHAN", OpGREATERTHAN),
  (b!"OP_LESSTHANOREQUAL", OpLESSTHANOREQUAL),
  (b!"OP_GREATERTHANOREQUAL", OpGREATERTHANOREQUAL),
  (b!"OP_MIN", OpMIN),
  (b!"OP_MAX", OpMAX),
  (b!"OP_WITHIN", OpWITHIN),
  (b!"OP_RIPEMD160", OpRIPEMD160),
  (b!"OP_SHA1", OpSHA1),
  (b!"OP_SHA256", OpSHA256),
  (b!"OP_HASH160", OpHASH160),
  (b!"OP_HASH256", OpHASH256),
  (b!"OP_CODESEPARATOR", OpCODESEPARATOR),
  (b!"OP_CHECKSIG", OpCHECKSIG),
  (b!"OP_CHECKSIGVERIFY", OpCHECKSIGVERIFY),
  (b!"OP_CHECKMULTISIG", OpCHECKMULTISIG),
  (b!"OP_CHECKMULTISIGVERIFY", OpCHECKMULTISIGVERIFY),
  (b!"OP_NOP1", OpNOP1),
  (b!"OP_NOP2", OpNOP2),
  (b!"OP_NOP3", OpNOP3),
  (b!"OP_NOP4", OpNOP4),
  (b!"OP_NOP5", OpNOP5),
  (b!"OP_NOP6", OpNOP6),
  (b!"OP_NOP7", OpNOP7),
  (b!"OP_NOP8", OpNOP8),
  (b!"OP_NOP9", OpNOP9),
  (b!"OP_NOP10", OpNOP10),
  (b!"OP_UNKNOWN186", OpUNKNOWN186),
  (b!"OP_UNKNOWN187", OpUNKNOWN187),
  (b!"OP_UNKNOWN188", OpUNKNOWN188),
  (b!"OP_UNKNOWN189", OpUNKNOWN189),
  (b!"OP_UNKNOWN190", OpUNKNOWN190),
  (b!"OP_UNKNOWN191", OpUNKNOWN191),
  (b!"OP_UNKNOWN192", OpUNKNOWN192),
  (b!"OP_UNKNOWN193", OpUNKNOWN193),
  (b!"OP_UNKNOWN194", OpUNKNOWN194),
  (b!"OP_UNKNOWN195", OpUNKNOWN195),
  (b!"OP_UNKNOWN196", OpUNKNOWN196),
  (b!"OP_UNKNOWN197", OpUNKNOWN197),
  (b!"OP_UNKNOWN198", OpUNKNOWN198),
  (b!"OP_UNKNOWN199", OpUNKNOWN199),
  (b!"OP_UNKNOWN200", OpUNKNOWN200),
  (b!"OP_UNKNOWN201", OpUNKNOWN201),
  (b!"OP_UNKNOWN202", OpUNKNOWN202),
  (b!"OP_UNKNOWN203", OpUNKNOWN203),
  (b!"OP_UNKNOWN204", OpUNKNOWN204),
  (b!"OP_UNKNOWN205", OpUNKNOWN205),
  (b!"OP_UNKNOWN206", OpUNKNOWN206),
  (b!"OP_UNKNOWN207", OpUNKNOWN207),
  (b!"OP_UNKNOWN208", OpUNKNOWN208),
  (b!"OP_UNKNOWN209", OpUNKNOWN209),
  (b!"OP_UNKNOWN210", OpUNKNOWN210),
  (b!"OP_UNKNOWN211", OpUNKNOWN211),
  (b!"OP_UNKNOWN212", OpUNKNOWN212),
  (b!"OP_UNKNOWN213", OpUNKNOWN213),
  (b!"OP_UNKNOWN214", OpUNKNOWN214),
  (b!"OP_UNKNOWN215", OpUNKNOWN215),
  (b!"OP_UNKNOWN216", OpUNKNOWN216),
  (b!"OP_UNKNOWN217", OpUNKNOWN217),
  (b!"OP_UNKNOWN218", OpUNKNOWN218),
  (b!"OP_UNKNOWN219", OpUNKNOWN219),
  (b!"OP_UNKNOWN220", OpUNKNOWN220),
  (b!"OP_UNKNOWN221", OpUNKNOWN221),
  (b!"OP_UNKNOWN222", OpUNKNOWN222),
  (b!"OP_UNKNOWN223", OpUNKNOWN223),
  (b!"OP_UNKNOWN224", OpUNKNOWN224),
  (b!"OP_UNKNOWN225", OpUNKNOWN225),
  (b!"OP_UNKNOWN226", OpUNKNOWN226),
  (b!"OP_UNKNOWN227", OpUNKNOWN227),
  (b!"OP_UNKNOWN228", OpUNKNOWN228),
  (b!"OP_UNKNOWN229", OpUNKNOWN229),
  (b!"OP_UNKNOWN230", OpUNKNOWN230),
  (b!"OP_UNKNOWN231", OpUNKNOWN231),
  (b!"OP_UNKNOWN232", OpUNKNOWN232),
  (b!"OP_UNKNOWN233", OpUNKNOWN233),
  (b!"OP_UNKNOWN234", OpUNKNOWN234),
  (b!"OP_UNKNOWN235", OpUNKNOWN235),
  (b!"OP_UNKNOWN236", OpUNKNOWN236),
  (b!"OP_UNKNOWN237", OpUNKNOWN237),
  (b!"OP_UNKNOWN238", OpUNKNOWN238),
  (b!"OP_UNKNOWN239", OpUNKNOWN239),
  (b!"OP_UNKNOWN240", OpUNKNOWN240),
  (b!"OP_UNKNOWN241", OpUNKNOWN241),
  (b!"OP_UNKNOWN242", OpUNKNOWN242),
  (b!"OP_UNKNOWN243", OpUNKNOWN243),
  (b!"OP_UNKNOWN244", OpUNKNOWN244),
  (b!"OP_UNKNOWN245", OpUNKNOWN245),
  (b!"OP_UNKNOWN246", OpUNKNOWN246),
  (b!"OP_UNKNOWN247", OpUNKNOWN247),
  (b!"OP_UNKNOWN248", OpUNKNOWN248),
  (b!"OP_UNKNOWN249", OpUNKNOWN249),
  (b!"OP_SMALLINTEGER", OpSMALLINTEGER),
  (b!"OP_PUBKEYS", OpPUBKEYS),
  (b!"OP_UNKNOWN252", OpUNKNOWN252),
  (b!"OP_PUBKEYHASH", OpPUBKEYHASH),
  (b!"OP_PUBKEY", OpPUBKEY),
  (b!"OP_INVALIDOPCODE", OpINVALIDOPCODE)]

/-- script/Opcodes.go:533-790 `opCodeValues` -/
def opCodeValues : List (UInt8 × Bytes) := [
  (OpFALSE, b!"OP_FALSE"),
  (OpDATA1, b!"OP_DATA_1"),
  (OpDATA2, b!"OP_DATA_2"),
  (OpDATA3, b!"OP_DATA_3"),
  (OpDATA4, b!"OP_DATA_4"),
  (OpDATA5, b!"OP_DATA_5"),
  (OpDATA6, b!"OP_DATA_6"),
  (OpDATA7, b!"OP_DATA_7"),
  (OpDATA8, b!"OP_DATA_8"),
  (OpDATA9, b!"OP_DATA_9"),
  (OpDATA10, b!"OP_DATA_10"),
  (OpDATA11, b!"OP_DATA_11"),
  (OpDATA12, b!"OP_DATA_12"),
  (OpDATA13, b!"OP_DATA_13"),
  (OpDATA14, b!"OP_DATA_14"),
  (OpDATA15, b!"OP_DATA_15"),
  (OpDATA16, b!"OP_DATA_16"),
  (OpDATA17, b!"OP_DATA_17"),
  (OpDATA18, b!"OP_DATA_18"),
  (OpDATA19, b!"OP_DATA_19"),
  (OpDATA20, b!"OP_DATA_20"),
  (OpDATA21, b!"OP_DATA_21"),
  (OpDATA22, b!"OP_DATA_22"),
  (OpDATA23, b!"OP_DATA_23"),
  (OpDATA24, b!"OP_DATA_24"),
  (OpDATA25, b!"OP_DATA_25"),
  (OpDATA26, b!"OP_DATA_26"),
  (OpDATA27, b!"OP_DATA_27"),
  (OpDATA28, b!"OP_DATA_28"),
  (OpDATA29, b!"OP_DATA_29"),
  (OpDATA30, b!"OP_DATA_30"),
  (OpDATA31, b!"OP_DATA_31"),
  (OpDATA32, b!"OP_DATA_32"),
  (OpDATA33, b!"OP_DATA_33"),
  (OpDATA34, b!"OP_DATA_34"),
  (OpDATA35, b!"OP_DATA_35"),
  (OpDATA36, b!"OP_DATA_36"),
  (OpDATA37, b!"OP_DATA_37"),
  (OpDATA38, b!"OP_DATA_38"),
  (OpDATA39, b!"OP_DATA_39"),
  (OpDATA40, b!"OP_DATA_40"),
  (OpDATA41, b!"OP_DATA_41"),
  (OpDATA42, b!"OP_DATA_42"),
  (OpDATA43, b!"OP_DATA_43"),
  (OpDATA44, b!"OP_DATA_44"),
  (OpDATA45, b!"OP_DATA_45"),
  (OpDATA46, b!"OP_DATA_46"),
  (OpDATA47, b!"OP_DATA_47"),
  (OpDATA48, b!"OP_DATA_48"),
  (OpDATA49, b!"OP_DATA_49"),
  (OpDATA50, b!"OP_DATA_50"),
  (OpDATA51, b!"OP_DATA_51"),
  (OpDATA52, b!"OP_DATA_52"),
  (OpDATA53, b!"OP_DATA_53"),
  (OpDATA54, b!"OP_DATA_54"),
  (OpDATA55, b!"OP_DATA_55"),
  (OpDATA56, b!"OP_DATA_56"),
  (OpDATA57, b!"OP_DATA_57"),
  (OpDATA58, b!"OP_DATA_58"),
  (OpDATA59, b!"OP_DATA_59"),
  (OpDATA60, b!"OP_DATA_60"),
  (OpDATA61, b!"OP_DATA_61"),
  (OpDATA62, b!"OP_DATA_62"),
  (OpDATA63, b!"OP_DATA_63"),
  (OpDATA64, b!"OP_DATA_64"),
  (OpDATA65, b!"OP_DATA_65"),
  (OpDATA66, b!"OP_DATA_66"),
  (OpDATA67, b!"OP_DATA_67"),
  (OpDATA68, b!"OP_DATA_68"),
  (OpDATA69, b!"OP_DATA_69"),
  (OpDATA70, b!"OP_DATA_70"),
  (OpDATA71, b!"OP_DATA_71"),
  (OpDATA72, b!"OP_DATA_72"),
  (OpDATA73, b!"OP_DATA_73"),
  (OpDATA74, b!"OP_DATA_74"),
  (OpDATA75, b!"OP_DATA_75"),
  (OpPUSHDATA1, b!"OP_PUSHDATA1"),
  (OpPUSHDATA2, b!"OP_PUSHDATA2"),
  (OpPUSHDATA4, b!"OP_PUSHDATA4"),
  (Op1NEGATE, b!"OP_1NEGATE"),
  (OpBASE, b!"OP_BASE"),
  (OpTRUE, b!"OP_TRUE"),
  (Op2, b!"OP_2"),
  (Op3, b!"OP_3"),
  (Op4, b!"OP_4"),
  (Op5, b!"OP_5"),
  (Op6, b!"OP_6"),
  (Op7, b!"OP_7"),
  (Op8, b!"OP_8"),
  (Op9, b!"OP_9"),
  (Op10, b!"OP_10"),
  (Op11, b!"OP_11"),
  (Op12, b!"OP_12"),
  (Op13, b!"OP_13"),
  (Op14, b!"OP_14"),
  (Op15, b!"OP_15"),
  (Op16, b!"OP_16"),
  (OpNOP, b!"OP_NOP"),
  (OpVER, b!"OP_VER"),
  (OpIF, b!"OP_IF"),
  (OpNOTIF, b!"OP_NOTIF"),
  (OpVERIF, b!"OP_VERIF"),
  (OpVERNOTIF, b!"OP_VERNOTIF"),
  (OpELSE, b!"OP_ELSE"),
  (OpENDIF, b!"OP_ENDIF"),
  (OpVERIFY, b!"OP_VERIFY"),
  (OpRETURN, b!"OP_RETURN"),
  (OpTOALTSTACK, b!"OP_TOALTSTACK"),
  (OpFROMALTSTACK, b!"OP_FROMALTSTACK"),
  (Op2DROP, b!"OP_2DROP"),
  (Op2DUP, b!"OP_2DUP"),
  (Op3DUP, b!"OP_3DUP"),
  (Op2OVER, b!"OP_2OVER"),
  (Op2ROT, b!"OP_2ROT"),
  (Op2SWAP, b!"OP_2SWAP"),
  (OpIFDUP, b!"OP_IFDUP"),
  (OpDEPTH, b!"OP_DEPTH"),
  (OpDROP, b!"OP_DROP"),
  (OpDUP, b!"OP_DUP"),
  (OpNIP, b!"OP_NIP"),
  (OpOVER, b!"OP_OVER"),
  (OpPICK, b!"OP_PICK"),
  (OpROLL, b!"OP_ROLL"),
  (OpROT, b!"OP_ROT"),
  (OpSWAP, b!"OP_SWAP"),
  (OpTUCK, b!"OP_TUCK"),
  (OpCAT, b!"OP_CAT"),
  (OpSPLIT, b!"OP_SPLIT"),
  (OpNUM2BIN, b!"OP_NUM2BIN"),
  (OpBIN2NUM, b!"OP_BIN2NUM"),
  (OpSIZE, b!"OP_SIZE"),
  (OpINVERT, b!"OP_INVERT"),
  (OpAND, b!"OP_AND"),
  (OpOR, b!"OP_OR"),
  (OpXOR, b!"OP_XOR"),
  (OpEQUAL, b!"OP_EQUAL"),
  (OpEQUALVERIFY, b!"OP_EQUALVERIFY"),
  (OpRESERVED1, b!"OP_RESERVED1"),
  (OpRESERVED2, b!"OP_RESERVED2"),
  (Op1ADD, b!"OP_1ADD"),
  (Op1SUB, b!"OP_1SUB"),
  (Op2MUL, b!"OP_2MUL"),
  (Op2DIV, b!"OP_2DIV"),
  (OpNEGATE, b!"OP_NEGATE"),
  (OpABS, b!"OP_ABS"),
  (OpNOT, b!"OP_NOT"),
  (Op0NOTEQUAL, b!"OP_0NOTEQUAL"),
  (OpADD, b!"OP_ADD"),
  (OpSUB, b!"OP_SUB"),
  (OpMUL, b!"OP_MUL"),
  (OpDIV, b!"OP_DIV"),
  (OpMOD, b!"OP_MOD"),
  (OpLSHIFT, b!"OP_LSHIFT"),
  (OpRSHIFT, b!"OP_RSHIFT"),
  (OpBOOLAND, b!"OP_BOOLAND"),
  (OpBOOLOR, b!"OP_BOOLOR"),
  (OpNUMEQUAL, b!"OP_NUMEQUAL"),
  (OpNUMEQUALVERIFY, b!"OP_NUMEQUALVERIFY"),
  (OpNUMNOTEQUAL, b!"OP_NUMNOTEQUAL"),
  (OpLESSTHAN, b!"OP_LESSTHAN"),
  (OpGREATERTHAN, b!"OP_GREATERTHAN"),
  (OpLESSTHANOREQUAL, b!"OP_LESSTHANOREQUAL"),
  (OpGREATERTHANOREQUAL, b!"OP_GREATERTHANOREQUAL"),
  (OpMIN, b!"OP_MIN"),
  (OpMAX, b!"OP_MAX"),
  (OpWITHIN, b!"OP_WITHIN"),
  (OpRIPEMD160, b!"OP_RIPEMD160"),
  (OpSHA1, b!"OP_SHA1"),
  (OpSHA256, b!"OP_SHA256"),
  (OpHASH160, b!"OP_HASH160"),
  (OpHASH256, b!"OP_HASH256"),
  (OpCODESEPARATOR, b!"OP_CODESEPARATOR"),
  (OpCHECKSIG, b!"OP_CHECKSIG"),
  (OpCHECKSIGVERIFY, b!"OP_CHECKSIGVERIFY"),
  (OpCHECKMULTISIG, b!"OP_CHECKMULTISIG"),
  (OpCHECKMULTISIGVERIFY, b!"OP_CHECKMULTISIGVERIFY"),
  (OpNOP1, b!"OP_NOP1"),
  (OpNOP2, b!"OP_NOP2"),
  (OpNOP3, b!"OP_NOP3"),
  (OpNOP4, b!"OP_NOP4"),
  (OpNOP5, b!"OP_NOP5"),
  (OpNOP6, b!"OP_NOP6"),
  (OpNOP7, b!"OP_NOP7"),
  (OpNOP8, b!"OP_NOP8"),
  (OpNOP9, b!"OP_NOP9"),
  (OpNOP10, b!"OP_NOP10"),
  (OpUNKNOWN186, b!"OP_UNKNOWN186"),
  (OpUNKNOWN187, b!"OP_UNKNOWN187"),
  (OpUNKNOWN188, b!"OP_UNKNOWN188"),
  (OpUNKNOWN189, b!"OP_UNKNOWN189"),
  (OpUNKNOWN190, b!"OP_UNKNOWN190"),
  (OpUNKNOWN191, b!"OP_UNKNOWN191"),
  (OpUNKNOWN192, b!"OP_UNKNOWN192"),
  (OpUNKNOWN193, b!"OP_UNKNOWN193"),
  (OpUNKNOWN194, b!"OP_UNKNOWN194"),
  (OpUNKNOWN195, b!"OP_UNKNOWN195"),
  (OpUNKNOWN196, b!"OP_UNKNOWN196"),
  (OpUNKNOWN197, b!"OP_UNKNOWN197"),
  (OpUNKNOWN198, b!"OP_UNKNOWN198"),
  (OpUNKNOWN199, b!"OP_UNKNOWN199"),
  (OpUNKNOWN200, b!"OP_UNKNOWN200"),
  (OpUNKNOWN201, b!"OP_UNKNOWN201"),
  (OpUNKNOWN202, b!"OP_UNKNOWN202"),
  (OpUNKNOWN203, b!"OP_UNKNOWN203"),
  (OpUNKNOWN204, b!"OP_UNKNOWN204"),
  (OpUNKNOWN205, b!"OP_UNKNOWN205"),
  (OpUNKNOWN206, b!"OP_UNKNOWN206"),
  (OpUNKNOWN207, b!"OP_UNKNOWN207"),
  (OpUNKNOWN208, b!"OP_UNKNOWN208"),
  (OpUNKNOWN209, b!"OP_UNKNOWN209"),
  (OpUNKNOWN210, b!"OP_UNKNOWN210"),
  (OpUNKNOWN211, b!"OP_UNKNOWN211"),
  (OpUNKNOWN212, b!"OP_UNKNOWN212"),
  (OpUNKNOWN213, b!"OP_UNKNOWN213"),
  (OpUNKNOWN214, b!"OP_UNKNOWN214"),
  (OpUNKNOWN215, b!"OP_UNKNOWN215"),
  (OpUNKNOWN216, b!"OP_UNKNOWN216"),
  (OpUNKNOWN217, b!"OP_UNKNOWN217"),
  (OpUNKNOWN218, b!"OP_UNKNOWN218"),
  (OpUNKNOWN219, b!"OP_UNKNOWN219"),
  (OpUNKNOWN220, b!"OP_UNKNOWN220"),
  (OpUNKNOWN221, b!"OP_UNKNOWN221"),
  (OpUNKNOWN222, b!"OP_UNKNOWN222"),
  (OpUNKNOWN223, b!"OP_UNKNOWN223"),
  (OpUNKNOWN224, b!"OP_UNKNOWN224"),
  (OpUNKNOWN225, b!"OP_UNKNOWN225"),
  (OpUNKNOWN226, b!"OP_UNKNOWN226"),
  (OpUNKNOWN227, b!"OP_UNKNOWN227"),
  (OpUNKNOWN228, b!"OP_UNKNOWN228"),
  (OpUNKNOWN229, b!"OP_UNKNOWN229"),
  (OpUNKNOWN230, b!"OP_UNKNOWN230"),
  (OpUNKNOWN231, b!"OP_UNKNOWN231"),
  (OpUNKNOWN232, b!"OP_UNKNOWN232"),
  (OpUNKNOWN233, b!"OP_UNKNOWN233"),
  (OpUNKNOWN234, b!"OP_UNKNOWN234"),
  (OpUNKNOWN235, b!"OP_UNKNOWN235"),
  (OpUNKNOWN236, b!"OP_UNKNOWN236"),
  (OpUNKNOWN237, b!"OP_UNKNOWN237"),
  (OpUNKNOWN238, b!"OP_UNKNOWN238"),
  (OpUNKNOWN239, b!"OP_UNKNOWN239"),
  (OpUNKNOWN240, b!"OP_UNKNOWN240"),
  (OpUNKNOWN241, b!"OP_UNKNOWN241"),
  (OpUNKNOWN242, b!"OP_UNKNOWN242"),
  (OpUNKNOWN243, b!"OP_UNKNOWN243"),
  (OpUNKNOWN244, b!"OP_UNKNOWN244"),
  (OpUNKNOWN245, b!"OP_UNKNOWN245"),
  (OpUNKNOWN246, b!"OP_UNKNOWN246"),
  (OpUNKNOWN247, b!"OP_UNKNOWN247"),
  (OpUNKNOWN248, b!"OP_UNKNOWN248"),
  (OpUNKNOWN249, b!"OP_UNKNOWN249"),
  (OpSMALLINTEGER, b!"OP_SMALLINTEGER"),
  (OpPUBKEYS, b!"OP_PUBKEYS"),
  (OpUNKNOWN252, b!"OP_UNKNOWN252"),
  (OpPUBKEYHASH, b!"OP_PUBKEYHASH"),
  (OpPUBKEY, b!"OP_PUBKEY"),
  (OpINVALIDOPCODE, b!"OP_INVALIDOPCODE")]

end Verif.Op
