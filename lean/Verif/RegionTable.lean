/-
The region table written by `setup_region_map`, pallets/deeper-node/src/lib.rs:610-917, in the order
of the source.  Codes are byte strings (`CountryRegion = Vec<u8>`, lib.rs:50).
-/

namespace Verif.DeeperNode

/-- Country or region code. -/
abbrev Code := List Nat

/-- Pairs (code, region that contains it), lib.rs:622-914. -/
def regionTable : List (Code × Code) := [
  ([65, 77, 78], [65, 77, 69, 82]) /- AMN AMER -/,
  ([65, 77, 67], [65, 77, 69, 82]) /- AMC AMER -/,
  ([65, 77, 77], [65, 77, 69, 82]) /- AMM AMER -/,
  ([65, 77, 83], [65, 77, 69, 82]) /- AMS AMER -/,
  ([65, 83, 67], [65, 83, 73, 65]) /- ASC ASIA -/,
  ([65, 83, 69], [65, 83, 73, 65]) /- ASE ASIA -/,
  ([65, 83, 87], [65, 83, 73, 65]) /- ASW ASIA -/,
  ([65, 83, 83], [65, 83, 73, 65]) /- ASS ASIA -/,
  ([65, 83, 68], [65, 83, 73, 65]) /- ASD ASIA -/,
  ([65, 70, 78], [65, 70, 82, 73]) /- AFN AFRI -/,
  ([65, 70, 77], [65, 70, 82, 73]) /- AFM AFRI -/,
  ([65, 70, 69], [65, 70, 82, 73]) /- AFE AFRI -/,
  ([65, 70, 87], [65, 70, 82, 73]) /- AFW AFRI -/,
  ([65, 70, 83], [65, 70, 82, 73]) /- AFS AFRI -/,
  ([69, 85, 78], [69, 85, 82, 79]) /- EUN EURO -/,
  ([69, 85, 69], [69, 85, 82, 79]) /- EUE EURO -/,
  ([69, 85, 87], [69, 85, 82, 79]) /- EUW EURO -/,
  ([69, 85, 83], [69, 85, 82, 79]) /- EUS EURO -/,
  ([79, 67, 80], [79, 67, 69, 65]) /- OCP OCEA -/,
  ([79, 67, 65], [79, 67, 69, 65]) /- OCA OCEA -/,
  ([79, 67, 77], [79, 67, 69, 65]) /- OCM OCEA -/,
  ([79, 67, 78], [79, 67, 69, 65]) /- OCN OCEA -/,
  ([66, 77], [65, 77, 78]) /- BM AMN -/,
  ([67, 65], [65, 77, 78]) /- CA AMN -/,
  ([71, 76], [65, 77, 78]) /- GL AMN -/,
  ([80, 77], [65, 77, 78]) /- PM AMN -/,
  ([85, 83], [65, 77, 78]) /- US AMN -/,
  ([65, 71], [65, 77, 67]) /- AG AMC -/,
  ([65, 73], [65, 77, 67]) /- AI AMC -/,
  ([65, 87], [65, 77, 67]) /- AW AMC -/,
  ([66, 66], [65, 77, 67]) /- BB AMC -/,
  ([66, 76], [65, 77, 67]) /- BL AMC -/,
  ([66, 81], [65, 77, 67]) /- BQ AMC -/,
  ([66, 83], [65, 77, 67]) /- BS AMC -/,
  ([67, 85], [65, 77, 67]) /- CU AMC -/,
  ([67, 87], [65, 77, 67]) /- CW AMC -/,
  ([68, 77], [65, 77, 67]) /- DM AMC -/,
  ([68, 79], [65, 77, 67]) /- DO AMC -/,
  ([71, 68], [65, 77, 67]) /- GD AMC -/,
  ([71, 80], [65, 77, 67]) /- GP AMC -/,
  ([72, 84], [65, 77, 67]) /- HT AMC -/,
  ([74, 77], [65, 77, 67]) /- JM AMC -/,
  ([75, 78], [65, 77, 67]) /- KN AMC -/,
  ([75, 89], [65, 77, 67]) /- KY AMC -/,
  ([76, 67], [65, 77, 67]) /- LC AMC -/,
  ([77, 70], [65, 77, 67]) /- MF AMC -/,
  ([77, 81], [65, 77, 67]) /- MQ AMC -/,
  ([77, 83], [65, 77, 67]) /- MS AMC -/,
  ([80, 82], [65, 77, 67]) /- PR AMC -/,
  ([83, 88], [65, 77, 67]) /- SX AMC -/,
  ([84, 67], [65, 77, 67]) /- TC AMC -/,
  ([84, 84], [65, 77, 67]) /- TT AMC -/,
  ([86, 67], [65, 77, 67]) /- VC AMC -/,
  ([86, 71], [65, 77, 67]) /- VG AMC -/,
  ([86, 73], [65, 77, 67]) /- VI AMC -/,
  ([66, 90], [65, 77, 77]) /- BZ AMM -/,
  ([67, 82], [65, 77, 77]) /- CR AMM -/,
  ([71, 84], [65, 77, 77]) /- GT AMM -/,
  ([72, 78], [65, 77, 77]) /- HN AMM -/,
  ([77, 88], [65, 77, 77]) /- MX AMM -/,
  ([78, 73], [65, 77, 77]) /- NI AMM -/,
  ([80, 65], [65, 77, 77]) /- PA AMM -/,
  ([83, 86], [65, 77, 77]) /- SV AMM -/,
  ([65, 82], [65, 77, 83]) /- AR AMS -/,
  ([66, 79], [65, 77, 83]) /- BO AMS -/,
  ([66, 82], [65, 77, 83]) /- BR AMS -/,
  ([67, 76], [65, 77, 83]) /- CL AMS -/,
  ([67, 79], [65, 77, 83]) /- CO AMS -/,
  ([69, 67], [65, 77, 83]) /- EC AMS -/,
  ([70, 75], [65, 77, 83]) /- FK AMS -/,
  ([71, 70], [65, 77, 83]) /- GF AMS -/,
  ([71, 83], [65, 77, 83]) /- GS AMS -/,
  ([71, 89], [65, 77, 83]) /- GY AMS -/,
  ([80, 69], [65, 77, 83]) /- PE AMS -/,
  ([80, 89], [65, 77, 83]) /- PY AMS -/,
  ([83, 82], [65, 77, 83]) /- SR AMS -/,
  ([85, 89], [65, 77, 83]) /- UY AMS -/,
  ([86, 69], [65, 77, 83]) /- VE AMS -/,
  ([75, 71], [65, 83, 67]) /- KG ASC -/,
  ([75, 90], [65, 83, 67]) /- KZ ASC -/,
  ([84, 74], [65, 83, 67]) /- TJ ASC -/,
  ([84, 77], [65, 83, 67]) /- TM ASC -/,
  ([85, 90], [65, 83, 67]) /- UZ ASC -/,
  ([67, 78], [65, 83, 69]) /- CN ASE -/,
  ([72, 75], [65, 83, 69]) /- HK ASE -/,
  ([74, 80], [65, 83, 69]) /- JP ASE -/,
  ([75, 80], [65, 83, 69]) /- KP ASE -/,
  ([75, 82], [65, 83, 69]) /- KR ASE -/,
  ([77, 78], [65, 83, 69]) /- MN ASE -/,
  ([77, 79], [65, 83, 69]) /- MO ASE -/,
  ([84, 87], [65, 83, 69]) /- TW ASE -/,
  ([65, 69], [65, 83, 87]) /- AE ASW -/,
  ([65, 77], [65, 83, 87]) /- AM ASW -/,
  ([65, 90], [65, 83, 87]) /- AZ ASW -/,
  ([66, 72], [65, 83, 87]) /- BH ASW -/,
  ([67, 89], [65, 83, 87]) /- CY ASW -/,
  ([71, 69], [65, 83, 87]) /- GE ASW -/,
  ([73, 76], [65, 83, 87]) /- IL ASW -/,
  ([73, 81], [65, 83, 87]) /- IQ ASW -/,
  ([74, 79], [65, 83, 87]) /- JO ASW -/,
  ([75, 87], [65, 83, 87]) /- KW ASW -/,
  ([76, 66], [65, 83, 87]) /- LB ASW -/,
  ([79, 77], [65, 83, 87]) /- OM ASW -/,
  ([80, 83], [65, 83, 87]) /- PS ASW -/,
  ([81, 65], [65, 83, 87]) /- QA ASW -/,
  ([83, 65], [65, 83, 87]) /- SA ASW -/,
  ([83, 89], [65, 83, 87]) /- SY ASW -/,
  ([84, 82], [65, 83, 87]) /- TR ASW -/,
  ([89, 69], [65, 83, 87]) /- YE ASW -/,
  ([65, 70], [65, 83, 83]) /- AF ASS -/,
  ([66, 68], [65, 83, 83]) /- BD ASS -/,
  ([66, 84], [65, 83, 83]) /- BT ASS -/,
  ([73, 78], [65, 83, 83]) /- IN ASS -/,
  ([73, 82], [65, 83, 83]) /- IR ASS -/,
  ([76, 75], [65, 83, 83]) /- LK ASS -/,
  ([77, 86], [65, 83, 83]) /- MV ASS -/,
  ([78, 80], [65, 83, 83]) /- NP ASS -/,
  ([80, 75], [65, 83, 83]) /- PK ASS -/,
  ([66, 78], [65, 83, 68]) /- BN ASD -/,
  ([73, 68], [65, 83, 68]) /- ID ASD -/,
  ([75, 72], [65, 83, 68]) /- KH ASD -/,
  ([76, 65], [65, 83, 68]) /- LA ASD -/,
  ([77, 77], [65, 83, 68]) /- MM ASD -/,
  ([77, 89], [65, 83, 68]) /- MY ASD -/,
  ([80, 72], [65, 83, 68]) /- PH ASD -/,
  ([83, 71], [65, 83, 68]) /- SG ASD -/,
  ([84, 72], [65, 83, 68]) /- TH ASD -/,
  ([84, 76], [65, 83, 68]) /- TL ASD -/,
  ([86, 78], [65, 83, 68]) /- VN ASD -/,
  ([68, 90], [65, 70, 78]) /- DZ AFN -/,
  ([69, 71], [65, 70, 78]) /- EG AFN -/,
  ([76, 89], [65, 70, 78]) /- LY AFN -/,
  ([77, 65], [65, 70, 78]) /- MA AFN -/,
  ([83, 68], [65, 70, 78]) /- SD AFN -/,
  ([84, 78], [65, 70, 78]) /- TN AFN -/,
  ([65, 79], [65, 70, 77]) /- AO AFM -/,
  ([67, 68], [65, 70, 77]) /- CD AFM -/,
  ([67, 70], [65, 70, 77]) /- CF AFM -/,
  ([67, 71], [65, 70, 77]) /- CG AFM -/,
  ([67, 77], [65, 70, 77]) /- CM AFM -/,
  ([71, 65], [65, 70, 77]) /- GA AFM -/,
  ([71, 81], [65, 70, 77]) /- GQ AFM -/,
  ([83, 84], [65, 70, 77]) /- ST AFM -/,
  ([84, 68], [65, 70, 77]) /- TD AFM -/,
  ([66, 73], [65, 70, 69]) /- BI AFE -/,
  ([68, 74], [65, 70, 69]) /- DJ AFE -/,
  ([69, 82], [65, 70, 69]) /- ER AFE -/,
  ([69, 84], [65, 70, 69]) /- ET AFE -/,
  ([73, 79], [65, 70, 69]) /- IO AFE -/,
  ([75, 69], [65, 70, 69]) /- KE AFE -/,
  ([75, 77], [65, 70, 69]) /- KM AFE -/,
  ([77, 71], [65, 70, 69]) /- MG AFE -/,
  ([77, 85], [65, 70, 69]) /- MU AFE -/,
  ([77, 87], [65, 70, 69]) /- MW AFE -/,
  ([77, 90], [65, 70, 69]) /- MZ AFE -/,
  ([82, 69], [65, 70, 69]) /- RE AFE -/,
  ([82, 87], [65, 70, 69]) /- RW AFE -/,
  ([83, 67], [65, 70, 69]) /- SC AFE -/,
  ([83, 79], [65, 70, 69]) /- SO AFE -/,
  ([83, 83], [65, 70, 69]) /- SS AFE -/,
  ([84, 70], [65, 70, 69]) /- TF AFE -/,
  ([84, 90], [65, 70, 69]) /- TZ AFE -/,
  ([85, 71], [65, 70, 69]) /- UG AFE -/,
  ([89, 84], [65, 70, 69]) /- YT AFE -/,
  ([90, 77], [65, 70, 69]) /- ZM AFE -/,
  ([90, 87], [65, 70, 69]) /- ZW AFE -/,
  ([66, 70], [65, 70, 87]) /- BF AFW -/,
  ([66, 74], [65, 70, 87]) /- BJ AFW -/,
  ([67, 73], [65, 70, 87]) /- CI AFW -/,
  ([67, 86], [65, 70, 87]) /- CV AFW -/,
  ([71, 72], [65, 70, 87]) /- GH AFW -/,
  ([71, 77], [65, 70, 87]) /- GM AFW -/,
  ([71, 78], [65, 70, 87]) /- GN AFW -/,
  ([71, 87], [65, 70, 87]) /- GW AFW -/,
  ([76, 82], [65, 70, 87]) /- LR AFW -/,
  ([77, 76], [65, 70, 87]) /- ML AFW -/,
  ([77, 82], [65, 70, 87]) /- MR AFW -/,
  ([78, 69], [65, 70, 87]) /- NE AFW -/,
  ([78, 71], [65, 70, 87]) /- NG AFW -/,
  ([83, 72], [65, 70, 87]) /- SH AFW -/,
  ([83, 76], [65, 70, 87]) /- SL AFW -/,
  ([83, 78], [65, 70, 87]) /- SN AFW -/,
  ([84, 71], [65, 70, 87]) /- TG AFW -/,
  ([66, 87], [65, 70, 83]) /- BW AFS -/,
  ([76, 83], [65, 70, 83]) /- LS AFS -/,
  ([78, 65], [65, 70, 83]) /- NA AFS -/,
  ([83, 90], [65, 70, 83]) /- SZ AFS -/,
  ([90, 65], [65, 70, 83]) /- ZA AFS -/,
  ([65, 88], [69, 85, 78]) /- AX EUN -/,
  ([68, 75], [69, 85, 78]) /- DK EUN -/,
  ([69, 69], [69, 85, 78]) /- EE EUN -/,
  ([70, 73], [69, 85, 78]) /- FI EUN -/,
  ([70, 79], [69, 85, 78]) /- FO EUN -/,
  ([71, 66], [69, 85, 78]) /- GB EUN -/,
  ([71, 71], [69, 85, 78]) /- GG EUN -/,
  ([73, 69], [69, 85, 78]) /- IE EUN -/,
  ([73, 77], [69, 85, 78]) /- IM EUN -/,
  ([73, 83], [69, 85, 78]) /- IS EUN -/,
  ([74, 69], [69, 85, 78]) /- JE EUN -/,
  ([76, 84], [69, 85, 78]) /- LT EUN -/,
  ([76, 86], [69, 85, 78]) /- LV EUN -/,
  ([78, 79], [69, 85, 78]) /- NO EUN -/,
  ([83, 69], [69, 85, 78]) /- SE EUN -/,
  ([83, 74], [69, 85, 78]) /- SJ EUN -/,
  ([66, 71], [69, 85, 69]) /- BG EUE -/,
  ([66, 89], [69, 85, 69]) /- BY EUE -/,
  ([67, 90], [69, 85, 69]) /- CZ EUE -/,
  ([72, 85], [69, 85, 69]) /- HU EUE -/,
  ([77, 68], [69, 85, 69]) /- MD EUE -/,
  ([80, 76], [69, 85, 69]) /- PL EUE -/,
  ([82, 79], [69, 85, 69]) /- RO EUE -/,
  ([82, 85], [69, 85, 69]) /- RU EUE -/,
  ([83, 75], [69, 85, 69]) /- SK EUE -/,
  ([85, 65], [69, 85, 69]) /- UA EUE -/,
  ([65, 84], [69, 85, 87]) /- AT EUW -/,
  ([66, 69], [69, 85, 87]) /- BE EUW -/,
  ([67, 72], [69, 85, 87]) /- CH EUW -/,
  ([68, 69], [69, 85, 87]) /- DE EUW -/,
  ([70, 82], [69, 85, 87]) /- FR EUW -/,
  ([76, 73], [69, 85, 87]) /- LI EUW -/,
  ([76, 85], [69, 85, 87]) /- LU EUW -/,
  ([77, 67], [69, 85, 87]) /- MC EUW -/,
  ([78, 76], [69, 85, 87]) /- NL EUW -/,
  ([65, 68], [69, 85, 83]) /- AD EUS -/,
  ([65, 76], [69, 85, 83]) /- AL EUS -/,
  ([66, 65], [69, 85, 83]) /- BA EUS -/,
  ([69, 83], [69, 85, 83]) /- ES EUS -/,
  ([71, 73], [69, 85, 83]) /- GI EUS -/,
  ([71, 82], [69, 85, 83]) /- GR EUS -/,
  ([72, 82], [69, 85, 83]) /- HR EUS -/,
  ([73, 84], [69, 85, 83]) /- IT EUS -/,
  ([77, 69], [69, 85, 83]) /- ME EUS -/,
  ([77, 75], [69, 85, 83]) /- MK EUS -/,
  ([77, 84], [69, 85, 83]) /- MT EUS -/,
  ([80, 84], [69, 85, 83]) /- PT EUS -/,
  ([82, 83], [69, 85, 83]) /- RS EUS -/,
  ([83, 73], [69, 85, 83]) /- SI EUS -/,
  ([83, 77], [69, 85, 83]) /- SM EUS -/,
  ([86, 65], [69, 85, 83]) /- VA EUS -/,
  ([88, 75], [69, 85, 83]) /- XK EUS -/,
  ([65, 83], [79, 67, 80]) /- AS OCP -/,
  ([67, 75], [79, 67, 80]) /- CK OCP -/,
  ([78, 85], [79, 67, 80]) /- NU OCP -/,
  ([80, 70], [79, 67, 80]) /- PF OCP -/,
  ([80, 78], [79, 67, 80]) /- PN OCP -/,
  ([84, 75], [79, 67, 80]) /- TK OCP -/,
  ([84, 79], [79, 67, 80]) /- TO OCP -/,
  ([84, 86], [79, 67, 80]) /- TV OCP -/,
  ([87, 70], [79, 67, 80]) /- WF OCP -/,
  ([87, 83], [79, 67, 80]) /- WS OCP -/,
  ([65, 85], [79, 67, 65]) /- AU OCA -/,
  ([67, 67], [79, 67, 65]) /- CC OCA -/,
  ([67, 88], [79, 67, 65]) /- CX OCA -/,
  ([78, 70], [79, 67, 65]) /- NF OCA -/,
  ([78, 90], [79, 67, 65]) /- NZ OCA -/,
  ([70, 74], [79, 67, 77]) /- FJ OCM -/,
  ([78, 67], [79, 67, 77]) /- NC OCM -/,
  ([80, 71], [79, 67, 77]) /- PG OCM -/,
  ([83, 66], [79, 67, 77]) /- SB OCM -/,
  ([86, 85], [79, 67, 77]) /- VU OCM -/,
  ([70, 77], [79, 67, 78]) /- FM OCN -/,
  ([71, 85], [79, 67, 78]) /- GU OCN -/,
  ([75, 73], [79, 67, 78]) /- KI OCN -/,
  ([77, 72], [79, 67, 78]) /- MH OCN -/,
  ([77, 80], [79, 67, 78]) /- MP OCN -/,
  ([78, 82], [79, 67, 78]) /- NR OCN -/,
  ([80, 87], [79, 67, 78]) /- PW OCN -/]

end Verif.DeeperNode
